import Verif.Model.Cache
import Verif.Props.Settle

/-!
# C37, C62: what `forward` remembers
-/

namespace PT
open Matrix Spec

variable {Θ E W B : Type}

namespace Spec

/-- What a call should return: the simulation with the given parameters in the given environment. -/
noncomputable def ideal (wd : World Θ E W) (θ : Θ) (e : E) (cs : List (Actor W B))
    (src : ℕ → ℕ → W → B → ℝ × ℝ) : Except PyErr (List (W → B → List (ℝ × ℝ))) :=
  match initNet (wd.plant θ e) (wd.sim e) with
  | .ok (some r) => forwardReduced r (wd.sim e) cs src
  | .ok none => .error .attributeError
  | .error x => .error x

/-- The parameters in force, and the environment and parameters of the last initialization: a call
initializes if its environment is not the one of the last initialization, or if gradients are tracked. -/
def remembered [DecidableEq E] : Θ × Option (E × Θ) → List (NetOp Θ E) → Θ × Option (E × Θ)
  | s, [] => s
  | (_, m), .set θ :: ops => remembered (θ, m) ops
  | (θ, m), .call e g :: ops =>
    remembered (θ, if m.map Prod.fst = some e ∧ g = false then m else some (e, θ)) ops

end Spec

/-- Environments usable for a simulation: frequency domain, or with a time step. -/
def UsableEnv (env : SimEnv) : Prop := env.freqdomain = true ∨ ∃ dt, env.dt = some dt ∧ 0 < dt

theorem mcOrder_length (p : Plant W) (env : SimEnv) (hx : p.Exclusive) :
    (p.mcOrder env).length = (p.mcPorts env).length := by
  have h := plant_splits p env hx
  have h2 : (p.mcOrder env).Nodup := (List.nodup_append.1 h.1).1
  have h3 : (p.mcPorts env).Nodup := (List.nodup_finRange _).filter _
  apply List.Perm.length_eq
  rw [List.perm_ext_iff_of_nodup h2 h3]
  intro i
  rw [mem_mcOrder]
  simp [Plant.mcPorts]

theorem storedSlots_attempt (p : Plant W) (env : SimEnv) (C) :
    storedSlots (attemptDelays p env) env = bufferLen (reducedOf p env C) env := by
  unfold storedSlots bufferLen maxReal attemptDelays
  have e : List.ofFn (reducedOf p env C).seconds = (p.mcOrder env).map (p.seconds env) := by
    apply List.ext_getElem
    · simp [reducedOf]
    · intro i h1 h2
      simp [reducedOf]
  rw [e]
  rfl

theorem runStored_fresh (wd : World Θ E W) (s : CacheState Θ E W) (e : E) (r : Reduced W) (θ : Θ)
    (hx : (wd.plant θ e).Exclusive) (hu : UsableEnv (wd.sim e))
    (hr : initNet (wd.plant θ e) (wd.sim e) = .ok (some r)) (h1 : s.env = some e) (h2 : s.red = some r)
    (h3 : s.numMc = ((wd.plant θ e).mcPorts (wd.sim e)).length)
    (h4 : s.delays = attemptDelays (wd.plant θ e) (wd.sim e))
    (cs : List (Actor W B)) (src : ℕ → ℕ → W → B → ℝ × ℝ) :
    runStored wd s cs src = forwardReduced r (wd.sim e) cs src := by
  have hb := (C28_buffer_size _ _ hu r hr).1
  obtain ⟨-, C, -, rfl⟩ := initNet_some hr
  unfold runStored
  rw [h1, h2]
  simp only
  rw [h4, storedSlots_attempt _ _ C, hb]
  refine if_pos ⟨?_, rfl⟩
  rw [h3, ← mcOrder_length _ _ hx]
  rfl

theorem doInit_some (wd : World Θ E W) (s : CacheState Θ E W) (e : E) (r : Reduced W)
    (hr : initNet (wd.plant s.params e) (wd.sim e) = .ok (some r)) :
    doInit wd s e = ({ s with
        env := some e, red := some r, numMc := ((wd.plant s.params e).mcPorts (wd.sim e)).length,
        delays := attemptDelays (wd.plant s.params e) (wd.sim e) }, none) := by
  simp only [doInit, hr]

theorem doInit_error (wd : World Θ E W) (s : CacheState Θ E W) (e : E) (x : PyErr)
    (hr : initNet (wd.plant s.params e) (wd.sim e) = .error x) :
    doInit wd s e = ({ s with
        numMc := ((wd.plant s.params e).mcPorts (wd.sim e)).length,
        delays := attemptDelays (wd.plant s.params e) (wd.sim e) }, some x) := by
  simp only [doInit, hr]

theorem ideal_ok (wd : World Θ E W) (θ : Θ) (e : E) (r : Reduced W)
    (hr : initNet (wd.plant θ e) (wd.sim e) = .ok (some r))
    (cs : List (Actor W B)) (src : ℕ → ℕ → W → B → ℝ × ℝ) :
    ideal wd θ e cs src = forwardReduced r (wd.sim e) cs src := by
  unfold ideal
  rw [hr]

/-- C37 (what holds): whatever happened to the network before, a call with gradient tracking, or in an environment
that is not the one of the last successful initialization, returns the simulation with the parameters at the time
of the call. The full claim, for calls without gradient tracking, is refuted by `C37_violation`. -/
theorem C37_fresh_partial (wd : World Θ E W) (s : CacheState Θ E W) (e : E) (grad : Bool)
    (hg : grad = true ∨ s.env ≠ some e) (hx : (wd.plant s.params e).Exclusive) (hu : UsableEnv (wd.sim e))
    (hi : initNet (wd.plant s.params e) (wd.sim e) ≠ .ok none)
    (cs : List (Actor W B)) (src : ℕ → ℕ → W → B → ℝ × ℝ) :
    (forwardCall wd s e grad cs src).2 = ideal wd s.params e cs src := by
  unfold forwardCall
  rw [if_pos (Or.symm hg)]
  unfold ideal
  cases hr : initNet (wd.plant s.params e) (wd.sim e) with
  | error x => rw [doInit_error wd s e x hr]
  | ok o =>
    cases o with
    | none => exact absurd hr hi
    | some r =>
      rw [doInit_some wd s e r hr]
      exact runStored_fresh wd { s with
        env := some e, red := some r, numMc := ((wd.plant s.params e).mcPorts (wd.sim e)).length,
        delays := attemptDelays (wd.plant s.params e) (wd.sim e) } e r s.params hx hu hr rfl rfl rfl rfl cs src

section
variable [DecidableEq E]

/-- The state of the network agrees with what is remembered. -/
structure Agree (wd : World Θ E W) (s : CacheState Θ E W) (m : Θ × Option (E × Θ)) : Prop where
  params : s.params = m.1
  env : s.env = m.2.map Prod.fst
  stored : ∀ e θ, m.2 = some (e, θ) → ∃ r, initNet (wd.plant θ e) (wd.sim e) = .ok (some r) ∧ s.red = some r ∧
    s.numMc = ((wd.plant θ e).mcPorts (wd.sim e)).length ∧
    s.delays = attemptDelays (wd.plant θ e) (wd.sim e)

/-- All parameters can be simulated in all environments. -/
def Wellbehaved (wd : World Θ E W) : Prop :=
  ∀ θ e, (wd.plant θ e).Exclusive ∧ UsableEnv (wd.sim e) ∧ ∃ r, initNet (wd.plant θ e) (wd.sim e) = .ok (some r)

theorem agree_call (wd : World Θ E W) (hw : Wellbehaved wd) (s : CacheState Θ E W) (m : Θ × Option (E × Θ))
    (h : Agree wd s m) (e : E) (g : Bool) (cs : List (Actor W B)) (src : ℕ → ℕ → W → B → ℝ × ℝ) :
    let m' : Θ × Option (E × Θ) := (m.1, if m.2.map Prod.fst = some e ∧ g = false then m.2 else some (e, m.1))
    Agree wd (forwardCall wd s e g cs src).1 m' ∧
      ∀ θ, m'.2 = some (e, θ) → (forwardCall wd s e g cs src).2 = ideal wd θ e cs src := by
  intro m'
  by_cases hc : m.2.map Prod.fst = some e ∧ g = false
  · have hm' : m' = (m.1, m.2) := by simp only [m', if_pos hc]
    have hf : forwardCall wd s e g cs src = (s, runStored wd s cs src) := by
      unfold forwardCall
      rw [if_neg]
      rw [h.env, hc.1, hc.2]
      simp
    rw [hf, hm']
    refine ⟨h, fun θ hθ => ?_⟩
    obtain ⟨r, h1, h2, h3, h4⟩ := h.stored e θ hθ
    simp only
    rw [runStored_fresh wd s e r θ (hw θ e).1 (hw θ e).2.1 h1 (by rw [h.env, hθ]; rfl) h2 h3 h4]
    unfold ideal
    rw [h1]
  · have hm' : m' = (m.1, some (e, m.1)) := by simp only [m', if_neg hc]
    have hg : g = true ∨ s.env ≠ some e := by
      rw [h.env]
      by_contra hn
      push Not at hn
      exact hc ⟨hn.2, by simpa using hn.1⟩
    obtain ⟨hx, hu, r, hr⟩ := hw m.1 e
    have hf := C37_fresh_partial wd s e g hg (by rw [h.params]; exact hx) hu (by rw [h.params, hr]; simp) cs src
    have hs : (forwardCall wd s e g cs src).1 = { s with
        env := some e, red := some r, numMc := ((wd.plant m.1 e).mcPorts (wd.sim e)).length,
        delays := attemptDelays (wd.plant m.1 e) (wd.sim e) } := by
      unfold forwardCall
      rw [if_pos (Or.symm hg)]
      rw [doInit_some wd s e r (by rw [h.params]; exact hr), h.params]
    rw [hf, hs, hm']
    refine ⟨⟨h.params, rfl, ?_⟩, ?_⟩
    · intro e' θ' heq
      simp only [Option.some.injEq, Prod.mk.injEq] at heq
      obtain ⟨rfl, rfl⟩ := heq
      exact ⟨r, hr, rfl, rfl, rfl⟩
    · intro θ hθ
      simp only [Option.some.injEq, Prod.mk.injEq, true_and] at hθ
      rw [← hθ, h.params]

theorem agree_run (wd : World Θ E W) (hw : Wellbehaved wd) (ops : List (NetOp Θ E)) (s : CacheState Θ E W)
    (m : Θ × Option (E × Θ)) (h : Agree wd s m) :
    Agree wd (ops.foldl (fun s op => op.run wd s) s) (remembered m ops) := by
  induction ops generalizing s m with
  | nil => exact h
  | cons op ops ih =>
    cases op with
    | set θ => exact ih _ _ ⟨rfl, h.env, h.stored⟩
    | call e g => exact ih _ _ (agree_call wd hw s m h e g [] _).1

/-- C37 (what holds, for all histories): after any sequence of parameter changes and calls in any environments, with
or without gradients, a call returns the simulation with the parameters of the last initialization, which is the
call itself unless it is made without gradient tracking in the environment of the last initialization. -/
theorem C37_history_partial (wd : World Θ E W) (hw : Wellbehaved wd) (θ₀ : Θ) (ops : List (NetOp Θ E)) (e : E) (g : Bool)
    (cs : List (Actor W B)) (src : ℕ → ℕ → W → B → ℝ × ℝ) :
    ∃ θ, (remembered (θ₀, none) (ops ++ [.call e g])).2 = some (e, θ) ∧
      (forwardCall wd (ops.foldl (fun s op => op.run wd s) (CacheState.new θ₀)) e g cs src).2 =
        ideal wd θ e cs src := by
  have h0 : Agree wd (CacheState.new θ₀) ((θ₀, none) : Θ × Option (E × Θ)) :=
    ⟨rfl, rfl, fun e θ h => by cases h⟩
  have h := agree_run wd hw ops _ _ h0
  have happ : ∀ m : Θ × Option (E × Θ), remembered m (ops ++ [.call e g]) =
      remembered (remembered m ops) [.call e g] := by
    induction ops with
    | nil => intro m; rfl
    | cons op ops ih =>
      intro m
      cases op with
      | set θ => exact ih (agree_run wd hw ops _ _ h0) _
      | call e' g' => exact ih (agree_run wd hw ops _ _ h0) _
  rw [happ]
  set m := remembered ((θ₀, none) : Θ × Option (E × Θ)) ops with hm
  have hk := (agree_call wd hw _ m h e g cs src).2
  have hmem : ∃ θ, (if m.2.map Prod.fst = some e ∧ g = false then m.2 else some (e, m.1)) = some (e, θ) := by
    split
    · rename_i hc
      obtain ⟨x, hx, hx2⟩ := Option.map_eq_some_iff.1 hc.1
      exact ⟨x.2, by rw [hx, ← hx2]⟩
    · exact ⟨_, rfl⟩
  obtain ⟨θ, hθ⟩ := hmem
  exact ⟨θ, hθ, hk θ hθ⟩

end

/-! ### The witness: the first call's parameters are used for ever -/

/-- The demo circuit with an opaque waveguide. -/
noncomputable def demoDark (τ : ℝ) : Plant Unit := { demo τ with rS := fun _ => 0, iS := fun _ => 0 }

theorem demoDark_init (τ : ℝ) (env : SimEnv) : ∃ r, initNet (demoDark τ) env = .ok (some r) := by
  refine C26_initialized (demoDark τ) env (demo_terminated τ) (demo_mc τ env) (fun w => ?_)
  have h := demo_Cml τ env
  have : pick (cx (demoDark τ).C 0) ((demoDark τ).mlPorts env) ((demoDark τ).mlPorts env) = 0 := h
  rw [this, Matrix.zero_mul, sub_zero, Matrix.det_one]
  exact one_ne_zero

/-- Parameters: is the waveguide transparent; a single, frequency-domain environment. -/
noncomputable def demoWorld : World Bool Unit Unit :=
  ⟨fun _ => demoFreq, fun θ _ => match θ with | true => demo 2 | false => demoDark 2⟩

theorem demoWorld_wellbehaved : Wellbehaved demoWorld := by
  intro θ e
  cases θ with
  | true => exact ⟨demo_exclusive 2, .inl rfl, demo_init 2 demoFreq⟩
  | false => exact ⟨demo_exclusive 2, .inl rfl, demoDark_init 2 demoFreq⟩

/-- A constant source. -/
noncomputable def onSrc : ℕ → ℕ → Unit → Unit → ℝ × ℝ := fun _ _ _ _ => (1, 0)

theorem demo_ideal_true : ∃ o, ideal demoWorld true () [] onSrc = .ok [o] ∧
    o () () = [((3 : ℝ) / 5, (4 : ℝ) / 5)] := by
  obtain ⟨r, hr⟩ := demo_init 2 demoFreq
  obtain ⟨o, ho, hs⟩ := C27_freq_domain (demo 2) demoFreq rfl rfl (demo_exclusive 2)
    (fun _ => rfl) (demo_det_ne 2) (demo_S_zero 2) r hr [] onSrc
  refine ⟨o, ?_, ?_⟩
  · exact (ideal_ok demoWorld true () r hr [] onSrc).trans ho
  · have hst : SolvesStatic (ι := Fin 4) (cx (demo 2).C 0) (cx ((demo 2).rS ()) ((demo 2).iS ()))
        (emitted (demo 2).src fun _ => ⟨1, 0⟩) (demoArrive 2) (demoLeave 2) := by
      have h := demo_constant 5
      have e : delayed (demoDelay 2) demoArrive 4 = demoArrive 2 := by
        rw [demoDelay_two]
        funext i
        fin_cases i <;> simp [delayed, demoArrive]
      refine ⟨h.incoming 2 (by omega), ?_⟩
      have := h.outgoing 4 (by omega)
      rw [e] at this
      rw [show demoLeave 2 = demoLeave 4 by simp [demoLeave]]
      exact this
    rw [(hs () ()).2 _ _ hst, demo_det]
    show [((demoArrive 2 3).re, (demoArrive 2 3).im)] = _
    simp [demoArrive, demoPhase]

theorem demo_ideal_false : ∃ o, ideal demoWorld false () [] onSrc = .ok [o] ∧ o () () = [(0, 0)] := by
  obtain ⟨r, hr⟩ := demoDark_init 2 demoFreq
  have hz : ∀ w, cx ((demoDark 2).rS w) ((demoDark 2).iS w) = 0 := fun w => cx_zero
  obtain ⟨o, ho, hs⟩ := C27_freq_domain (demoDark 2) demoFreq rfl rfl (demo_exclusive 2)
    (fun _ => rfl) (demo_det_ne 2) (fun w i _ j => by rw [hz]; exact ⟨rfl, rfl⟩) r hr [] onSrc
  refine ⟨o, ?_, ?_⟩
  · exact (ideal_ok demoWorld false () r hr [] onSrc).trans ho
  · have hst : SolvesStatic (ι := Fin 4) (cx (demoDark 2).C 0) (cx ((demoDark 2).rS ()) ((demoDark 2).iS ()))
        (emitted (demo 2).src fun _ => ⟨1, 0⟩) (demoArrive 0) (demoLeave 0) := by
      refine ⟨(demo_constant 1).incoming 0 one_pos, ?_⟩
      have e : (cx ((demoDark 2).rS ()) ((demoDark 2).iS ()) : Matrix (Fin 4) (Fin 4) ℂ) = 0 := hz ()
      rw [e, Matrix.zero_mulVec, zero_add, demo_emitted]
      simp [demoLeave]
    rw [(hs () ()).2 _ _ hst]
    show (portsWith (demo 2).det).map _ = _
    rw [demo_det]
    show [((demoArrive 0 3).re, (demoArrive 0 3).im)] = _
    simp [demoArrive]

/-- C37 is violated: after the waveguide is made transparent, a call without gradient tracking in the same environment
still returns the result for the opaque one. -/
theorem C37_violation : ∃ (wd : World Bool Unit Unit) (ops : List (NetOp Bool Unit)),
    Wellbehaved wd ∧
    (forwardCall wd (ops.foldl (fun s op => op.run wd s) (CacheState.new false)) () false [] onSrc).2 ≠
      ideal wd (ops.foldl (fun s op => op.run wd s) (CacheState.new false)).params () [] onSrc := by
  refine ⟨demoWorld, [.call () false, .set true], demoWorld_wellbehaved, ?_⟩
  obtain ⟨θ, h1, h2⟩ := C37_history_partial (B := Unit) demoWorld demoWorld_wellbehaved false
    [.call () false, .set true] () false [] onSrc
  have hθ : θ = false := by
    simp [remembered] at h1
    exact h1
  subst hθ
  rw [h2]
  have hp : ((([.call () false, .set true] : List (NetOp Bool Unit)).foldl (fun s op => op.run demoWorld s)
    (CacheState.new false))).params = true := rfl
  rw [hp]
  obtain ⟨o, ho, ho2⟩ := demo_ideal_false
  obtain ⟨o', ho', ho2'⟩ := demo_ideal_true
  rw [ho, ho']
  intro h
  have h3 : o = o' := by simpa using h
  rw [h3, ho2'] at ho2
  norm_num at ho2

example : ∃ o, (forwardCall demoWorld (CacheState.new true) () true [] onSrc).2 = .ok [o] ∧
    o () () = [((3 : ℝ) / 5, (4 : ℝ) / 5)] := by
  obtain ⟨o, h1, h2⟩ := demo_ideal_true
  exact ⟨o, (C37_fresh_partial demoWorld (CacheState.new true) () true (.inl rfl) (demo_exclusive 2) (.inl rfl)
    (by obtain ⟨r, hr⟩ := demo_init 2 demoFreq; show initNet (demo 2) demoFreq ≠ _; rw [hr]; simp) [] onSrc).trans h1, h2⟩

/-! ## C62: a failed initialization -/

/-- Source (0) and detector (1) joined directly, and a lossless waveguide (2, 3) with delay 2 closed to a ring. -/
noncomputable def ringDemo : Plant Unit where
  n := 4
  C := !![0, 1, 0, 0; 1, 0, 0, 0; 0, 0, 0, 1; 0, 0, 1, 0]
  rS := fun _ => !![0, 0, 0, 0; 0, 0, 0, 0; 0, 0, 0, 1; 0, 0, 1, 0]
  iS := fun _ => 0
  delay := ![0, 0, 2, 2]
  src := ![true, false, false, false]
  det := ![false, true, false, false]
  act := fun _ => false

theorem ringDemo_exclusive : ringDemo.Exclusive := by
  intro (i : Fin 4)
  fin_cases i <;> simp [ringDemo]

theorem ringDemo_terminated : ringDemo.terminated := by
  intro (i : Fin 4)
  left
  show 0 < ∑ k : Fin 4, ringDemo.C k i
  rw [Fin.sum_univ_four]
  fin_cases i <;> simp [ringDemo]

theorem ringDemo_time_mc (i : Fin 4) : ringDemo.mcAt demoTime i = true := by
  have h : realTrunc (2 + 2⁻¹) = 2 := by
    unfold realTrunc
    rw [if_pos (by norm_num), Int.floor_eq_iff]
    norm_num
  fin_cases i <;> simp [Plant.mcAt, ringDemo, Plant.steps, Plant.seconds, demoTime, h]

theorem ringDemo_freq_mc (i : Fin 4) : ringDemo.mcAt demoFreq i = decide (i = 0 ∨ i = 1) := by
  fin_cases i <;> simp [Plant.mcAt, ringDemo, Plant.steps, demoFreq]

theorem ringDemo_time_ports : (ringDemo.mcPorts demoTime).length = 4 := by
  have : ringDemo.mcPorts demoTime = List.finRange 4 :=
    List.filter_eq_self.2 fun i _ => ringDemo_time_mc i
  rw [this]; rfl

theorem ringDemo_freq_ports : (ringDemo.mcPorts demoFreq).length = 2 := by
  have : ringDemo.mcPorts demoFreq = (List.finRange 4).filter fun i => decide (i = 0 ∨ i = 1) :=
    List.filter_congr fun i _ => ringDemo_freq_mc i
  rw [this]; rfl

/-- The ports of the ring. -/
def ringMl : List (Fin ringDemo.n) := ([2, 3] : List (Fin 4))

theorem ringDemo_freq_ml : ringDemo.mlPorts demoFreq = ringMl := by
  have : ringDemo.mlPorts demoFreq = (List.finRange 4).filter fun i => !decide (i = 0 ∨ i = 1) :=
    List.filter_congr fun i _ => congrArg (!·) (ringDemo_freq_mc i)
  rw [this]; rfl

theorem ringDemo_time_init : ∃ r, initNet ringDemo demoTime = .ok (some r) := by
  refine C26_initialized ringDemo demoTime ringDemo_terminated ⟨(0 : Fin 4), ringDemo_time_mc 0⟩ (fun w => ?_)
  have hml : ringDemo.mlPorts demoTime = [] :=
    List.filter_eq_nil_iff.2 fun i _ => by rw [ringDemo_time_mc i]; simp
  rw [hml]
  rw [show ∀ M : Matrix (Fin 0) (Fin 0) ℂ, M.det = 1 from fun M => Matrix.det_isEmpty]
  exact one_ne_zero

/-- In the frequency domain the ring is resonant. -/
theorem ringDemo_freq_fails : initNet ringDemo demoFreq = .error .runtimeError := by
  unfold initNet
  rw [if_neg (by push Not; exact ⟨ringDemo_terminated, by rw [ringDemo_freq_ports]; norm_num⟩)]
  have : reducedC ringDemo.C ringDemo.rS ringDemo.iS (ringDemo.mcOrder demoFreq) (ringDemo.mlPorts demoFreq) =
      .error .runtimeError := by
    rw [C25_failure]
    refine ⟨rfl, (), ?_⟩
    rw [ringDemo_freq_ml]
    rw [← Matrix.exists_mulVec_eq_zero_iff]
    refine ⟨(fun _ => 1 : Fin 2 → ℂ), ?_, ?_⟩
    · intro h
      exact one_ne_zero (congrFun h (0 : Fin 2))
    · have e : pick (cx ringDemo.C 0) ringMl ringMl *
          pick (cx (ringDemo.rS ()) (ringDemo.iS ())) ringMl ringMl = 1 := by
        ext1 (i : Fin 2) (j : Fin 2)
        refine (Matrix.mul_apply ..).trans ?_
        refine (Fin.sum_univ_two (M := ℂ) _).trans ?_
        have e1 : ∀ i j : Fin 2, pick (cx ringDemo.C 0) ringMl ringMl i j = if i = j then 0 else 1 := by
          intro i j
          fin_cases i <;> fin_cases j <;> rfl
        have e2 : ∀ i j : Fin 2, pick (cx (ringDemo.rS ()) (ringDemo.iS ())) ringMl ringMl i j =
            if i = j then 0 else 1 := by
          intro i j
          fin_cases i <;> fin_cases j <;> rfl
        rw [e1, e1, e2, e2]
        refine Eq.trans ?_ (Matrix.one_apply (n := Fin 2)).symm
        fin_cases i <;> fin_cases j <;> simp
      rw [e, sub_self]
      exact Matrix.zero_mulVec _
  rw [this]
  rfl

/-- One set of parameters; environment `true` is a time-domain one, `false` a frequency-domain one. -/
noncomputable def ringWorld : World Unit Bool Unit :=
  ⟨fun e => match e with | true => demoTime | false => demoFreq, fun _ _ => ringDemo⟩

/-- C62 is violated: a call that fails in one environment makes the network unusable in the environment it is
initialized for: before the failed call a simulation there succeeds, afterwards it fails. -/
theorem C62_violation : ∃ (wd : World Unit Bool Unit) (s : CacheState Unit Bool Unit),
    s.env = some true ∧
    (∃ out, (forwardCall wd s true false [] onSrc).2 = .ok out) ∧
    (forwardCall (B := Unit) wd s false false [] onSrc).2 = .error .runtimeError ∧
    (forwardCall wd (forwardCall (B := Unit) wd s false false [] onSrc).1 true false [] onSrc).2 =
      .error .runtimeError := by
  obtain ⟨r, hr⟩ := ringDemo_time_init
  have hu : UsableEnv (ringWorld.sim true) := .inr ⟨1, rfl, one_pos⟩
  have hm : r.m = 4 := by
    obtain ⟨-, C, -, rfl⟩ := initNet_some hr
    exact (mcOrder_length ringDemo demoTime ringDemo_exclusive).trans ringDemo_time_ports
  set s : CacheState Unit Bool Unit := ⟨(), some true, some r, (ringDemo.mcPorts demoTime).length,
    attemptDelays ringDemo demoTime⟩ with hs
  have hf : forwardCall (B := Unit) ringWorld s false false [] onSrc = ({ s with
      numMc := (ringDemo.mcPorts demoFreq).length, delays := attemptDelays ringDemo demoFreq },
      .error .runtimeError) := by
    unfold forwardCall
    rw [if_pos (.inl (by simp [hs])), doInit_error ringWorld s false .runtimeError ringDemo_freq_fails]
    rfl
  refine ⟨ringWorld, s, rfl, ?_, by rw [hf], ?_⟩
  · have h1 : (forwardCall ringWorld s true false [] onSrc).2 = runStored ringWorld s [] onSrc := by
      unfold forwardCall
      rw [if_neg (by simp [hs])]
    have h2 := runStored_fresh (B := Unit) ringWorld s true r () ringDemo_exclusive hu hr rfl rfl rfl rfl [] onSrc
    have hdne : ringDemo.numDet ≠ 0 := by
      rw [numDet_eq, Ne, List.length_eq_zero_iff]
      apply List.ne_nil_of_mem (a := (1 : Fin 4))
      simp [portsWith, ringDemo]
    obtain ⟨-, C, -, rfl⟩ := initNet_some hr
    obtain ⟨len, hlen, -⟩ := bufferLen_ok ringDemo demoTime C (.inr ⟨1, rfl, one_pos⟩)
    exact ⟨_, by rw [h1, h2]; exact forward_eq ringDemo demoTime C hdne [] onSrc len hlen⟩
  · rw [hf]
    unfold forwardCall
    rw [if_neg (by simp [hs])]
    simp only
    unfold runStored
    simp only [hs]
    have : ∀ (x : Except PyErr ℕ), (∃ k, x = .ok k) →
        (x.bind fun k => if (ringDemo.mcPorts demoFreq).length = r.m ∧ k = r.maskLen then
          forwardReduced r (ringWorld.sim true) [] onSrc else .error .runtimeError) =
          (.error .runtimeError : Except PyErr (List (Unit → Unit → List (ℝ × ℝ)))) := by
      rintro x ⟨k, rfl⟩
      refine if_neg ?_
      rw [ringDemo_freq_ports, hm]
      omega
    exact this _ ⟨_, rfl⟩

/-- C62 (what holds): after any failures, a call with gradient tracking gives the right result; this is
`C37_fresh_partial` for the state left behind by the failed call. -/
theorem C62_recovery_partial (wd : World Θ E W) (s : CacheState Θ E W) (e e' : E) (g : Bool)
    (hx : (wd.plant s.params e).Exclusive) (hu : UsableEnv (wd.sim e))
    (hi : initNet (wd.plant s.params e) (wd.sim e) ≠ .ok none)
    (cs : List (Actor W B)) (src : ℕ → ℕ → W → B → ℝ × ℝ) :
    (forwardCall wd (forwardCall wd s e' g cs src).1 e true cs src).2 = ideal wd s.params e cs src := by
  have hp : (forwardCall wd s e' g cs src).1.params = s.params := by
    unfold forwardCall
    split
    · unfold doInit
      simp only
      split
      · rename_i heq
        split at heq <;> cases heq <;> rfl
      · rename_i heq
        split at heq <;> cases heq <;> rfl
    · rfl
  have := C37_fresh_partial wd (forwardCall wd s e' g cs src).1 e true (.inl rfl) (by rw [hp]; exact hx) hu
    (by rw [hp]; exact hi) cs src
  rw [this, hp]

example : ringDemo.Exclusive ∧ UsableEnv (ringWorld.sim true) ∧
    initNet (ringWorld.plant () true) (ringWorld.sim true) ≠ .ok none := by
  refine ⟨ringDemo_exclusive, .inr ⟨1, rfl, one_pos⟩, ?_⟩
  obtain ⟨r, hr⟩ := ringDemo_time_init
  show initNet ringDemo demoTime ≠ _
  rw [hr]
  simp

end PT
