import Verif.Proof.Delays

/-!
# The simulation computes the solution of the circuit equations
-/

namespace PT

open Matrix Spec

variable {W B : Type}

/-- `forwardReduced` with at least one detector. -/
theorem forward_eq (p : Plant W) (env : SimEnv) (C) (hd : p.numDet ≠ 0)
    (cs : List (Actor W B)) (src : ℕ → ℕ → W → B → ℝ × ℝ) (len : ℕ)
    (hlen : bufferLen (reducedOf p env C) env = .ok len) :
    forwardReduced (reducedOf p env C) env cs src =
      .ok ((simulate (reducedOf p env C) cs
        (fun i => padSource (p.mcOrder env).length p.numSrc (src i)) env.t 0
        (emptyBuffer len (p.mcOrder env).length W B)).map fun x => detectNodes p.numDet x) := by
  unfold forwardReduced
  rw [hlen]
  simp only [Except.bind]
  rw [if_pos (.inl (sliceLen_eq p env hd))]
  rfl

/-- No coupling between ports with and without delay. -/
def Plant.NoMix (p : Plant W) (env : SimEnv) (w : W) : Prop :=
  ∀ i j, p.stepDelay env i = 0 → p.stepDelay env j ≠ 0 → p.Sx w i j = 0 ∧ p.Sx w j i = 0

theorem noMix_decoupled (p : Plant W) (env : SimEnv) (w : W) (h : p.NoMix env w) :
    Decoupled (p.Sx w) (p.mcOrder env) (p.mlPorts env) := by
  have hm : ∀ k, p.stepDelay env ((p.mcOrder env).get k) ≠ 0 := fun k => by
    rw [stepDelay_mc p env _ ((mem_mcOrder p env _).1 (List.get_mem _ k))]; omega
  have hl : ∀ k, p.stepDelay env ((p.mlPorts env).get k) = 0 := fun k =>
    stepDelay_ml p env _ ((mem_mlPorts p env _).1 (List.get_mem _ k))
  constructor
  · ext i j
    exact (h _ _ (hl j) (hm i)).2
  · ext i j
    exact (h _ _ (hl i) (hm j)).1

theorem reduced_redC (p : Plant W) (env : SimEnv) (C) (w : W)
    (hC : reducedC p.C p.rS p.iS (p.mcOrder env) (p.mlPorts env) = .ok C) :
    (1 - pick p.Cx (p.mlPorts env) (p.mlPorts env) * pick (p.Sx w) (p.mlPorts env) (p.mlPorts env)).det ≠ 0 ∧
      cx (C.1 w) (C.2 w) = redC p.Cx (p.Sx w) (p.mcOrder env) (p.mlPorts env) := by
  constructor
  · intro h
    have := (C25_failure p.C p.rS p.iS (p.mcOrder env) (p.mlPorts env) .runtimeError).2 ⟨rfl, w, h⟩
    rw [hC] at this
    cases this
  · exact C25_solution p.C p.rS p.iS _ _ C.1 C.2 hC w

theorem act_none (p : Plant W) (h : ∀ i, p.act i = false) : p.numAct = 0 := by
  unfold Plant.numAct
  simp [h]

section
variable (p : Plant W) (env : SimEnv) (hx : p.Exclusive) (hact : ∀ i, p.act i = false)
  (C : (W → Matrix (Fin (p.mcOrder env).length) (Fin (p.mcOrder env).length) ℝ) ×
      (W → Matrix (Fin (p.mcOrder env).length) (Fin (p.mcOrder env).length) ℝ))
  (hC : reducedC p.C p.rS p.iS (p.mcOrder env) (p.mlPorts env) = .ok C)
  (cs : List (Actor W B)) (src : ℕ → ℕ → W → B → ℝ × ℝ) (len : ℕ) (hlen : 0 < len)
  (hidx : ∀ k, (reducedOf p env C).tIdx k < len)
  (xs : List (Fields (p.mcOrder env).length W B))
  (hxs : xs = simulate (reducedOf p env C) cs
    (fun i => padSource (p.mcOrder env).length p.numSrc (src i)) env.t 0
    (emptyBuffer len (p.mcOrder env).length W B))
  (w : W) (b : B) (hmix : p.NoMix env w)

/-- The source signal of a batch and wavelength as complex channels. -/
def channels (src : ℕ → ℕ → W → B → ℝ × ℝ) (w : W) (b : B) (t k : ℕ) : ℂ :=
  ⟨(src t k w b).1, (src t k w b).2⟩

include hx hact hC hlen hidx hxs in
theorem traj_red (t : ℕ) (ht : t < env.t.length) :
    traj xs w b t = redC p.Cx (p.Sx w) (p.mcOrder env) (p.mlPorts env) *ᵥ
      (pick (p.Sx w) (p.mcOrder env) (p.mcOrder env) *ᵥ
        delayed (fun k => p.stepDelay env ((p.mcOrder env).get k)) (traj xs w b) t +
        emitted p.src (channels src w b t) ∘ (p.mcOrder env).get) := by
  have h := traj_step (reducedOf p env C) (act_none p hact) cs _ len hlen hidx env.t xs hxs t ht w b
  have e1 : cx ((reducedOf p env C).rC w) ((reducedOf p env C).iC w) =
      redC p.Cx (p.Sx w) (p.mcOrder env) (p.mlPorts env) := (reduced_redC p env C w hC).2
  have e2 : (fun k => (reducedOf p env C).tIdx k + 1) =
      fun k => p.stepDelay env ((p.mcOrder env).get k) := by
    funext k
    exact (stepDelay_mc p env _ ((mem_mcOrder p env _).1 (List.get_mem _ k))).symm
  have e3 := padSource_val p env hx (src t) w b
  rw [e1, e2] at h
  refine h.trans ?_
  have e4 : cx ((reducedOf p env C).rS w) ((reducedOf p env C).iS w) =
      pick (p.Sx w) (p.mcOrder env) (p.mcOrder env) := (pick_cx _ _ _ _).symm
  rw [e4]
  exact congrArg (fun v => redC p.Cx (p.Sx w) (p.mcOrder env) (p.mlPorts env) *ᵥ
    (pick (p.Sx w) (p.mcOrder env) (p.mcOrder env) *ᵥ
        delayed (fun k => p.stepDelay env ((p.mcOrder env).get k)) (traj xs w b) t + v)) e3

include hx hact hC hlen hidx hxs hmix in
/-- Every solution of the circuit equations agrees with the simulation on the memory ports. -/
theorem sim_unique (a b' : ℕ → Fin p.n → ℂ)
    (hs : Solves p.Cx (p.Sx w) (p.stepDelay env) env.t.length
      (fun t => emitted p.src (channels src w b t)) a b') (t : ℕ) (ht : t < env.t.length) :
    a t ∘ (p.mcOrder env).get = traj xs w b t := by
  induction t using Nat.strong_induction_on with
  | _ t ih =>
    have hsp := plant_splits p env hx
    have hml : ∀ k, p.stepDelay env ((p.mlPorts env).get k) = 0 := fun k =>
      stepDelay_ml p env _ ((mem_mlPorts p env _).1 (List.get_mem _ k))
    have hmc : ∀ k, p.stepDelay env ((p.mcOrder env).get k) ≠ 0 := fun k => by
      rw [stepDelay_mc p env _ ((mem_mcOrder p env _).1 (List.get_mem _ k))]; omega
    have key := (hsp.reduce p.Cx (p.Sx w) (noMix_decoupled p env w hmix)
      (reduced_redC p env C w hC).1 (a t) (b' t) (delayed (p.stepDelay env) a t)
      (emitted p.src (channels src w b t)) (hs.incoming t ht) (hs.outgoing t ht)
      (by funext k; simp only [Function.comp_apply, delayed, hml k]; simp)
      (by
        funext k
        have := (mem_mlPorts p env _).1 (List.get_mem (p.mlPorts env) k)
        have hns : p.src ((p.mlPorts env).get k) = false := by
          cases h : p.src ((p.mlPorts env).get k) with
          | false => rfl
          | true => rw [src_mcAt p env _ h] at this; cases this
        simp only [Function.comp_apply, emitted, hns]; rfl)).2
    rw [key, traj_red p env hx hact C hC cs src len hlen hidx xs hxs w b t ht]
    congr 3
    funext k
    simp only [Function.comp_apply, delayed]
    split
    · rename_i hle
      have hlt : t - p.stepDelay env ((p.mcOrder env).get k) < t := by
        have := hmc k; omega
      exact congrFun (ih _ hlt (by omega)) k
    · rfl

include hx hact hC hlen hidx hxs hmix in
/-- The circuit equations have a solution. -/
theorem sim_exists : ∃ a b', Solves p.Cx (p.Sx w) (p.stepDelay env) env.t.length
      (fun t => emitted p.src (channels src w b t)) a b' := by
  have hsp := plant_splits p env hx
  have hml : ∀ k, p.stepDelay env ((p.mlPorts env).get k) = 0 := fun k =>
    stepDelay_ml p env _ ((mem_mlPorts p env _).1 (List.get_mem _ k))
  have hmc : ∀ k, p.stepDelay env ((p.mcOrder env).get k) ≠ 0 := fun k => by
    rw [stepDelay_mc p env _ ((mem_mcOrder p env _).1 (List.get_mem _ k))]; omega
  have hstep := fun t => hsp.extend p.Cx (p.Sx w) (noMix_decoupled p env w hmix)
      (reduced_redC p env C w hC).1
      (delayed (fun k => p.stepDelay env ((p.mcOrder env).get k)) (traj xs w b) t)
      (emitted p.src (channels src w b t)) (by
        funext k
        have := (mem_mlPorts p env _).1 (List.get_mem (p.mlPorts env) k)
        have hns : p.src ((p.mlPorts env).get k) = false := by
          cases h : p.src ((p.mlPorts env).get k) with
          | false => rfl
          | true => rw [src_mcAt p env _ h] at this; cases this
        simp only [Function.comp_apply, emitted, hns]; rfl)
  choose a b' h1 h2 h3 using hstep
  refine ⟨a, b', fun t _ => h1 t, fun t ht => ?_⟩
  have hmem : ∀ t, t < env.t.length → a t ∘ (p.mcOrder env).get = traj xs w b t := by
    intro t ht
    rw [h3 t, traj_red p env hx hact C hC cs src len hlen hidx xs hxs w b t ht]
  rw [h2 t]
  congr 2
  apply hsp.ext
  · intro k
    rw [hsp.join_mc]
    simp only [delayed]
    split
    · exact (congrFun (hmem _ (by omega)) k).symm
    · rfl
  · intro k
    rw [hsp.join_ml]
    simp only [delayed, hml k, Nat.zero_le, if_true, Nat.sub_zero, Function.comp_apply]

end

/-- The simulation returns, at every step, the incoming waves at the detectors of any solution of the
circuit equations, and there is one. -/
theorem sim_correct (p : Plant W) (env : SimEnv) (hx : p.Exclusive) (hact : ∀ i, p.act i = false)
    (hd : p.numDet ≠ 0) (hdt : env.freqdomain = true ∨ ∃ dt, env.dt = some dt ∧ 0 < dt)
    (hmix : ∀ w, p.NoMix env w) (r : Reduced W) (hr : initNet p env = .ok (some r))
    (cs : List (Actor W B)) (src : ℕ → ℕ → W → B → ℝ × ℝ) :
    ∃ out, forwardReduced r env cs src = .ok out ∧ out.length = env.t.length ∧
      ∀ w b, (∃ a b', Solves p.Cx (p.Sx w) (p.stepDelay env) env.t.length
          (fun t => emitted p.src (channels src w b t)) a b') ∧
        ∀ a b', Solves p.Cx (p.Sx w) (p.stepDelay env) env.t.length
          (fun t => emitted p.src (channels src w b t)) a b' →
          ∀ t (ht : t < out.length), out[t] w b = (portsWith p.det).map fun i => ((a t i).re, (a t i).im) := by
  obtain ⟨-, C, hC, rfl⟩ := initNet_some hr
  obtain ⟨len, hlen, hpos, hidx⟩ := bufferLen_ok p env C hdt
  set xs := simulate (reducedOf p env C) cs
    (fun i => padSource (p.mcOrder env).length p.numSrc (src i)) env.t 0
    (emptyBuffer len (p.mcOrder env).length W B) with hxs
  refine ⟨_, forward_eq p env C hd cs src len hlen, ?_, fun w b => ⟨?_, ?_⟩⟩
  · rw [List.length_map]
    exact simulate_length _ _ _ _ _ _
  · exact sim_exists p env hx hact C hC cs src len hpos hidx xs hxs w b (hmix w)
  · intro a b' hs t ht
    have hl : xs.length = env.t.length := by rw [hxs]; exact simulate_length _ _ _ _ _ _
    have ht' : t < xs.length := by simpa [hxs] using ht
    rw [List.getElem_map]
    apply detectNodes_eq p env hd
    rw [sim_unique p env hx hact C hC cs src len hpos hidx xs hxs w b (hmix w) a b' hs t (by omega)]
    funext k
    show ((xs[t]?).map fun x => x.val w b k).getD 0 = _
    rw [List.getElem?_eq_getElem ht']
    rfl

end PT
