import Verif.Props.Modulate
import Verif.Props.Lossy
import Verif.Props.Filters
import Mathlib.Analysis.SpecificLimits.Basic
import Verif.Proof.Continuum

/-!
# C129: refining the time step
-/

namespace PT
open Spec Matrix

variable {W B : Type}

/-- A circuit in which no light circulates without delay can be initialized. -/
theorem time_initialized (p : Plant W) (env : SimEnv) (hT : p.terminated) (hx : p.Exclusive) (hm : ∃ i, p.mcAt env i = true)
    (hmix : ∀ w i j, p.stepDelay env i = 0 → p.stepDelay env j ≠ 0 →
      cx (p.rS w) (p.iS w) i j = 0 ∧ cx (p.rS w) (p.iS w) j i = 0)
    (hnull : ∀ w (a : Fin p.n → ℂ),
      a = cx p.C 0 *ᵥ (cx (p.rS w) (p.iS w) *ᵥ fun k => if p.stepDelay env k = 0 then a k else 0) → a = 0) :
    ∃ r, initNet p env = .ok (some r) := by
  refine C26_initialized p env hT hm fun w h0 => ?_
  obtain ⟨u, hu, hu0⟩ := Matrix.exists_mulVec_eq_zero_iff.2 h0
  rw [Matrix.sub_mulVec, Matrix.one_mulVec, ← Matrix.mulVec_mulVec, sub_eq_zero] at hu0
  have hsp := plant_splits p env hx
  have hmc : ∀ k, p.stepDelay env ((p.mcOrder env).get k) ≠ 0 := fun k => by
    rw [stepDelay_mc p env _ ((mem_mcOrder p env _).1 (List.get_mem _ k))]; omega
  have hml : ∀ k, p.stepDelay env ((p.mlPorts env).get k) = 0 := fun k =>
    stepDelay_ml p env _ ((mem_mlPorts p env _).1 (List.get_mem _ k))
  set b := hsp.join 0 (pick (cx (p.rS w) (p.iS w)) (p.mlPorts env) (p.mlPorts env) *ᵥ u) with hb
  have b1 : b ∘ (p.mcOrder env).get = 0 := funext fun k => hsp.join_mc _ _ k
  have b2 : b ∘ (p.mlPorts env).get = pick (cx (p.rS w) (p.iS w)) (p.mlPorts env) (p.mlPorts env) *ᵥ u :=
    funext fun k => hsp.join_ml _ _ k
  have a2 : (cx p.C 0 *ᵥ b) ∘ (p.mlPorts env).get = u := by
    rw [hsp.mulVec, b1, b2, Matrix.mulVec_zero, zero_add]
    exact hu0.symm
  have hSb : (cx (p.rS w) (p.iS w) *ᵥ fun k => if p.stepDelay env k = 0 then (cx p.C 0 *ᵥ b) k else 0) = b := by
    apply hsp.ext
    · intro k
      have : b ((p.mcOrder env).get k) = 0 := congrFun b1 k
      rw [this]
      simp only [Matrix.mulVec, dotProduct]
      refine Finset.sum_eq_zero fun j _ => ?_
      by_cases hj : p.stepDelay env j = 0
      · rw [(hmix w j _ hj (hmc k)).2, zero_mul]
      · rw [if_neg hj, mul_zero]
    · intro k
      have h1 := congrFun (hsp.mulVec (cx (p.rS w) (p.iS w)) (fun k => if p.stepDelay env k = 0 then (cx p.C 0 *ᵥ b) k else 0)
        (p.mlPorts env)) k
      have h2 : (fun k => if p.stepDelay env k = 0 then (cx p.C 0 *ᵥ b) k else 0) ∘ (p.mcOrder env).get = 0 := by
        funext k
        simp only [Function.comp_apply, if_neg (hmc k), Pi.zero_apply]
      have h3 : (fun k => if p.stepDelay env k = 0 then (cx p.C 0 *ᵥ b) k else 0) ∘ (p.mlPorts env).get = u := by
        rw [← a2]
        funext k
        simp only [Function.comp_apply, if_pos (hml k)]
      rw [h2, h3, Matrix.mulVec_zero, zero_add] at h1
      exact h1.trans (congrFun b2 k).symm
  have := hnull w (cx p.C 0 *ᵥ b) (by rw [hSb])
  apply hu
  rw [← a2, this]
  rfl

theorem round_zero {τ dt : ℝ} (hτ : 0 ≤ τ) (hdt : 0 < dt) (h : τ ≠ 0 → dt ≤ τ) : roundSteps (τ / dt) = 0 ↔ τ = 0 := by
  constructor
  · intro h0
    by_contra hne
    have h1 := round_near hτ hdt
    rw [h0] at h1
    have h2 := h hne
    rw [Nat.cast_zero, zero_mul, sub_zero, abs_of_nonneg hτ] at h1
    linarith
  · rintro rfl
    rw [zero_div]
    unfold roundSteps
    norm_num

/-- Ports that are not delayed in a simulation with small time steps: those without delay, and not sources or detectors, which scatter
nothing. -/
theorem instant_eq {d : Dev} {L : List Part} (hL : Flat d L) (v : ℝ) (wl : W → ℝ) (hτ : ∀ k, 0 ≤ (d.plant v wl).delay k) (dt : ℝ) (hdt : 0 < dt)
    (hsm : ∀ k, (d.plant v wl).delay k ≠ 0 → dt ≤ (d.plant v wl).delay k) (w : W) (a : Fin d.comp.n → ℂ) :
    (cx ((d.plant v wl).rS w) ((d.plant v wl).iS w) *ᵥ fun k => if circuitDelay d v wl dt k = 0 then a k else 0) =
      cx ((d.plant v wl).rS w) ((d.plant v wl).iS w) *ᵥ fun k => if (d.plant v wl).delay k = 0 then a k else 0 := by
  funext i
  simp only [Matrix.mulVec, dotProduct]
  refine Finset.sum_congr rfl fun k _ => ?_
  show cx ((d.plant v wl).rS w) ((d.plant v wl).iS w) i k * (if circuitDelay d v wl dt k = 0 then a k else 0) =
    cx ((d.plant v wl).rS w) ((d.plant v wl).iS w) i k * (if (d.plant v wl).delay k = 0 then a k else 0)
  by_cases hk : ((d.plant v wl).src k || (d.plant v wl).det k) = true
  · rw [(plant_term hL v wl w k hk i).2, zero_mul, zero_mul]
  · have : circuitDelay d v wl dt k = roundSteps ((d.plant v wl).delay k / dt) := by
      unfold circuitDelay portDelay
      rw [if_neg hk]
    rw [this, if_congr (round_zero (hτ k) hdt (hsm k)) rfl rfl]

/-- C129. With a time step not longer than any delay, a circuit can be simulated exactly if no light circulates in it without delay. -/
theorem C129_solvable (d : Dev) (hM : MadeOf (fun _ => True) d) (ht : d.comp.terminated = true) (v : ℝ) (wl : W → ℝ)
    (hτ : ∀ k, 0 ≤ (d.plant v wl).delay k) (hd : portsWith (d.plant v wl).det ≠ []) (env : SimEnv) (dt : ℝ) (he : env.dt = some dt)
    (hf : env.freqdomain = false) (hdt : 0 < dt) (hsm : ∀ k, (d.plant v wl).delay k ≠ 0 → dt ≤ (d.plant v wl).delay k) :
    (∃ r, initNet (d.plant v wl) env = .ok (some r)) ↔
      ∀ w, Timely (cx (d.plant v wl).C 0) (cx ((d.plant v wl).rS w) ((d.plant v wl).iS w)) (d.plant v wl).delay := by
  obtain ⟨hc, L, -, hL⟩ := madeOf_flat hM
  have hstep : ∀ k, (d.plant v wl).stepDelay env k = circuitDelay d v wl dt k := by
    intro k
    rw [stepDelay_time _ env dt he hf]
    unfold circuitDelay Plant.marked
    rw [plant_act hL v wl, Bool.or_false]
  constructor
  · rintro ⟨r, hr⟩ w x hx
    refine no_instant (d.plant v wl) env dt he hf (plant_exclusive hL v wl) (plant_act hL v wl) (circuitDelay d v wl dt) (fun _ => rfl)
      (circuit_mix hL v wl dt) r hr w x ?_
    rw [← Matrix.mulVec_mulVec, instant_eq hL v wl hτ dt hdt hsm w x]
    exact hx
  · intro h
    obtain ⟨i, hi⟩ := List.exists_mem_of_ne_nil _ hd
    refine time_initialized (d.plant v wl) env (plant_terminated hc ht v wl) (plant_exclusive hL v wl) ⟨i, mcAt_of_marked _ env i (by
      have h1 : (d.plant v wl).det i = true := (List.mem_filter.1 hi).2
      rw [h1, Bool.or_true])⟩ (fun w i j hi hj => circuit_mix hL v wl dt w i j (by rw [← hstep]; exact hi) (by rw [← hstep]; exact hj))
      fun w a ha => h w a ?_
    simp only [hstep] at ha
    rw [← instant_eq hL v wl hτ dt hdt hsm w a]
    exact ha

/-- C129. Refining the time step: for sources that vary with bounded slope there is exactly one flow of light through the circuit in
continuous time, and on every interval of time the simulation detects it up to a multiple of the time step. -/
theorem C129_refines (d : Dev) (hM : MadeOf (fun _ => True) d) (ht : d.comp.terminated = true) (v : ℝ) (wl : W → ℝ)
    (hτ : ∀ k, 0 ≤ (d.plant v wl).delay k) (hd : portsWith (d.plant v wl).det ≠ [])
    (htim : ∀ w, Timely (cx (d.plant v wl).C 0) (cx ((d.plant v wl).rS w) ((d.plant v wl).iS w)) (d.plant v wl).delay)
    (s : ℝ → ℕ → W → B → ℂ) (hs : ∀ t ≤ 0, ∀ k w b, s t k w b = 0) (slope : ℝ)
    (hL : ∀ t t' k w b, ‖s t k w b - s t' k w b‖ ≤ slope * |t - t'|) (w : W) (b : B) :
    ∃ a, Flows (cx (d.plant v wl).C 0) (cx ((d.plant v wl).rS w) ((d.plant v wl).iS w)) (d.plant v wl).delay
        (fun t => emitted (d.plant v wl).src fun k => s t k w b) a ∧
      (∀ a', Flows (cx (d.plant v wl).C 0) (cx ((d.plant v wl).rS w) ((d.plant v wl).iS w)) (d.plant v wl).delay
        (fun t => emitted (d.plant v wl).src fun k => s t k w b) a' → a' = a) ∧
      ∀ T, ∃ K, ∀ (env : SimEnv) (dt : ℝ) (cs : List (Actor W B)), env.dt = some dt → env.freqdomain = false → 0 < dt →
        (∀ k, (d.plant v wl).delay k ≠ 0 → dt ≤ (d.plant v wl).delay k) →
        ∃ r out, initNet (d.plant v wl) env = .ok (some r) ∧
          forwardReduced r env cs (fun n k w b => ((s (n * dt) k w b).re, (s (n * dt) k w b).im)) = .ok out ∧ out.length = env.t.length ∧
          ∀ n (hn : n < out.length), n * dt ≤ T →
            CloseUpTo (K * dt) 1 (out[n] w b) ((portsWith (d.plant v wl).det).map fun i => ((a (n * dt) i).re, (a (n * dt) i).im)) := by
  obtain ⟨hc, L, -, hfl⟩ := madeOf_flat hM
  have hslope : 0 ≤ slope := by
    have := (norm_nonneg _).trans (hL 1 0 0 w b)
    simpa using this
  have hs' : ∀ t ≤ 0, (emitted (d.plant v wl).src fun k => s t k w b) = 0 := by
    intro t ht
    funext i
    unfold emitted
    simp only [hs t ht]
    simp
  have hL' : ∀ t t', ‖(emitted (d.plant v wl).src fun k => s t k w b) - emitted (d.plant v wl).src fun k => s t' k w b‖ ≤
      slope * |t - t'| := by
    intro t t'
    rw [pi_norm_le_iff_of_nonneg (by positivity)]
    intro i
    simp only [Pi.sub_apply, emitted]
    split
    · exact hL _ _ _ _ _
    · rw [sub_self, norm_zero]
      positivity
  obtain ⟨a, ha, huniq, hlip⟩ := flows_exists hτ (htim w) hs' hL'
  refine ⟨a, ha, huniq, fun T => ?_⟩
  obtain ⟨Λ, hΛ, hl⟩ := hlip T
  obtain ⟨K, hK, hnear⟩ := steps_near hτ (htim w) ha hΛ hl
  refine ⟨K + 1, fun env dt cs he hf hdt hsm => ?_⟩
  obtain ⟨r, hr⟩ := (C129_solvable d hM ht v wl hτ hd env dt he hf hdt hsm).2 htim
  obtain ⟨out, ho, hlen, hout⟩ := C66_time_domain d hM v wl env dt he hdt hf hd r hr cs
    (fun n k w b => ((s (n * dt) k w b).re, (s (n * dt) k w b).im))
  refine ⟨r, out, hr, ho, hlen, fun n hn hT => ?_⟩
  obtain ⟨⟨x, y, hxy⟩, hall⟩ := hout w b
  rw [hall x y hxy n hn]
  have hd2 : ∀ k, circuitDelay d v wl dt k = roundSteps ((d.plant v wl).delay k / dt) ∨
      ∀ i, cx ((d.plant v wl).rS w) ((d.plant v wl).iS w) i k = 0 := by
    intro k
    by_cases hk : ((d.plant v wl).src k || (d.plant v wl).det k) = true
    · exact .inr fun i => (plant_term hfl v wl w k hk i).2
    · refine .inl ?_
      unfold circuitDelay portDelay
      rw [if_neg hk]
  have := hnear dt hdt hsm (circuitDelay d v wl dt) hd2 env.t.length x y hxy n (hlen ▸ hn) hT
  refine ⟨by simp, fun q z z' hz hz' => ?_⟩
  rw [List.getElem?_map, Option.map_eq_some_iff] at hz hz'
  obtain ⟨i, hi, rfl⟩ := hz
  obtain ⟨i', hi', rfl⟩ := hz'
  rw [hi] at hi'
  cases hi'
  rw [one_mul]
  refine lt_of_le_of_lt ((norm_le_pi_norm (x n - a (n * dt)) i).trans this) ?_
  nlinarith

/-- C129. If every loop of the circuit contains a delay, no light circulates without delay. -/
theorem C129_delayed {ι : Type} [Fintype ι] (C S : Matrix ι ι ℂ) (τ : ι → ℝ)
    (h : ∀ i, ¬Relation.TransGen (fun k i => τ k = 0 ∧ ∃ j, C i j ≠ 0 ∧ S j k ≠ 0) i i) : Timely C S τ := by
  intro x hx
  set R : ι → ι → Prop := fun k i => τ k = 0 ∧ ∃ j, C i j ≠ 0 ∧ S j k ≠ 0 with hR
  have hwf : WellFounded (Relation.TransGen R) := by
    haveI : IsTrans ι (Relation.TransGen R) := ⟨fun _ _ _ => Relation.TransGen.trans⟩
    haveI : Std.Irrefl (Relation.TransGen R) := ⟨h⟩
    exact Finite.wellFounded_of_trans_of_irrefl _
  funext i
  induction i using hwf.induction with
  | _ i ih =>
    have h1 := congrFun hx i
    simp only [Matrix.mulVec, dotProduct] at h1
    rw [h1]
    refine Finset.sum_eq_zero fun j _ => ?_
    by_cases hC : C i j = 0
    · rw [hC, zero_mul]
    · rw [Finset.sum_eq_zero, mul_zero]
      intro k _
      by_cases hk : τ k = 0
      · rw [if_pos hk]
        by_cases hS : S j k = 0
        · rw [hS, zero_mul]
        · have := ih k (.single ⟨hk, j, hC, hS⟩)
          rw [this]
          exact mul_zero _
      · rw [if_neg hk, mul_zero]

theorem past_sampled (s : ℝ → ℂ) (hs : ∀ t ≤ 0, s t = 0) (dt : ℝ) (hdt : 0 < dt) (n D : ℕ) :
    past (fun m => s (m * dt)) n D = s (n * dt - D * dt) := by
  unfold past
  split
  · rename_i h
    show s (((n - D : ℕ) : ℝ) * dt) = _
    rw [Nat.cast_sub h, sub_mul]
  · rename_i h
    rw [hs]
    have : (n : ℝ) ≤ D := by exact_mod_cast (not_le.1 h).le
    nlinarith

theorem norm_zero_of_small {e : ℂ} {c : ℝ} (m₀ : ℕ) (h : ∀ m : ℕ, m₀ ≤ m → 0 < m → ‖e‖ ≤ c / m) : e = 0 := by
  have h1 : Filter.Tendsto (fun m : ℕ => c / (m : ℝ)) Filter.atTop (nhds 0) := tendsto_const_div_atTop_nhds_zero_nat c
  have h2 : ‖e‖ ≤ 0 := by
    refine ge_of_tendsto h1 ?_
    filter_upwards [Filter.eventually_ge_atTop (m₀ + 1)] with m hm
    exact h m (by omega) (by omega)
  exact norm_eq_zero.1 (le_antisymm h2 (norm_nonneg _))

/-- The light that passed a ring on a bus and the light that went around it up to `J` times, with a round trip of length `τ` (in
seconds). -/
noncomputable def Spec.roundTrips (k : ℝ) (p z : ℂ) (s : ℝ → ℂ) (τ₀ τ : ℝ) (J : ℕ) (t : ℝ) : ℂ :=
  p * (√(1 - k) * s (t - τ₀) - k * ∑ j ∈ Finset.range J, (√(1 - k) : ℂ) ^ j * z ^ (j + 1) * s (t - τ₀ - (j + 1) * τ))

/-- Rounding all delays changes the sum over the round trips by a multiple of the time step. -/
theorem trips_near (k : ℝ) (hk : 0 ≤ k ∧ k ≤ 1) (p z : ℂ) (s : ℝ → ℂ) (hs : ∀ t ≤ 0, s t = 0) (slope : ℝ) (hL : ∀ t t', ‖s t - s t'‖ ≤ slope * |t - t'|)
    (τ₀ τ t : ℝ) (hτ₀ : 0 ≤ τ₀) (hτ : 0 < τ) (J : ℕ) (hJ : t ≤ J * τ) :
    ∃ c : ℝ, ∀ (dt : ℝ) (D₀ D m : ℕ), 0 < dt → dt * (J + 1) ≤ τ → J ≤ m → |D₀ * dt - τ₀| ≤ dt → |D * dt - τ| ≤ dt →
      ‖p * (√(1 - k) * s (t - D₀ * dt) - k * ∑ j ∈ Finset.range m, (√(1 - k) : ℂ) ^ j * z ^ (j + 1) * s (t - (D₀ + (j + 1) * D : ℕ) * dt)) -
        roundTrips k p z s τ₀ τ J t‖ ≤ c * dt := by
  have hslope : 0 ≤ slope := by
    have := (norm_nonneg _).trans (hL 1 0)
    simpa using this
  have hq : 0 ≤ √(1 - k) := Real.sqrt_nonneg _
  have hq1 : ‖(√(1 - k) : ℂ)‖ ≤ 1 := by
    rw [Complex.norm_real, Real.norm_eq_abs, abs_of_nonneg hq]
    exact Real.sqrt_le_one.2 (by linarith [hk.1])
  have hk1 : ‖(k : ℂ)‖ ≤ 1 := by
    rw [Complex.norm_real, Real.norm_eq_abs, abs_of_nonneg hk.1]
    exact hk.2
  refine ⟨‖p‖ * (slope + ∑ j ∈ Finset.range J, ‖z‖ ^ (j + 1) * (slope * (j + 2))), fun dt D₀ D m hdt hsm hm h₀ h => ?_⟩
  have hcut : ∑ j ∈ Finset.range m, (√(1 - k) : ℂ) ^ j * z ^ (j + 1) * s (t - (D₀ + (j + 1) * D : ℕ) * dt) =
      ∑ j ∈ Finset.range J, (√(1 - k) : ℂ) ^ j * z ^ (j + 1) * s (t - (D₀ + (j + 1) * D : ℕ) * dt) := by
    refine (Finset.sum_subset (Finset.range_mono hm) fun j _ hj => ?_).symm
    rw [Finset.mem_range, not_lt] at hj
    rw [hs, mul_zero]
    have hj' : (J : ℝ) ≤ j := by exact_mod_cast hj
    have h1 := (abs_le.1 h).1
    have h3 : 0 ≤ (D₀ : ℝ) * dt := by positivity
    have h4 : 0 ≤ τ - dt := by nlinarith [Nat.cast_nonneg (α := ℝ) J]
    have h5 : (J + 1 : ℝ) * (τ - dt) ≤ (j + 1) * (D * dt) :=
      mul_le_mul (by linarith) (by linarith) h4 (by positivity)
    push_cast
    nlinarith
  rw [hcut]
  unfold roundTrips
  have e : p * (√(1 - k) * s (t - D₀ * dt) - k * ∑ j ∈ Finset.range J, (√(1 - k) : ℂ) ^ j * z ^ (j + 1) * s (t - (D₀ + (j + 1) * D : ℕ) * dt)) -
      p * (√(1 - k) * s (t - τ₀) - k * ∑ j ∈ Finset.range J, (√(1 - k) : ℂ) ^ j * z ^ (j + 1) * s (t - τ₀ - (j + 1) * τ)) =
      p * (√(1 - k) * (s (t - D₀ * dt) - s (t - τ₀)) - k * ∑ j ∈ Finset.range J, (√(1 - k) : ℂ) ^ j * z ^ (j + 1) *
        (s (t - (D₀ + (j + 1) * D : ℕ) * dt) - s (t - τ₀ - (j + 1) * τ))) := by
    simp only [mul_sub, Finset.sum_sub_distrib]
    ring
  rw [e, norm_mul, mul_assoc]
  refine mul_le_mul_of_nonneg_left ?_ (norm_nonneg _)
  have b1 : ‖(√(1 - k) : ℂ) * (s (t - D₀ * dt) - s (t - τ₀))‖ ≤ slope * dt := by
    rw [norm_mul]
    refine (mul_le_of_le_one_left (norm_nonneg _) hq1).trans ((hL _ _).trans (mul_le_mul_of_nonneg_left ?_ hslope))
    rw [show t - D₀ * dt - (t - τ₀) = -(D₀ * dt - τ₀) by ring, abs_neg]
    exact h₀
  have b2 : ‖(k : ℂ) * ∑ j ∈ Finset.range J, (√(1 - k) : ℂ) ^ j * z ^ (j + 1) *
      (s (t - (D₀ + (j + 1) * D : ℕ) * dt) - s (t - τ₀ - (j + 1) * τ))‖ ≤
      (∑ j ∈ Finset.range J, ‖z‖ ^ (j + 1) * (slope * (j + 2))) * dt := by
    rw [norm_mul]
    refine (mul_le_of_le_one_left (norm_nonneg _) hk1).trans ((norm_sum_le _ _).trans ?_)
    rw [Finset.sum_mul]
    refine Finset.sum_le_sum fun j _ => ?_
    rw [norm_mul, norm_mul, norm_pow, norm_pow, mul_assoc (‖z‖ ^ (j + 1))]
    refine mul_le_mul (mul_le_of_le_one_left (by positivity) (pow_le_one₀ (norm_nonneg _) hq1)) ?_ (norm_nonneg _) (by positivity)
    refine (hL _ _).trans ?_
    rw [mul_assoc]
    refine mul_le_mul_of_nonneg_left ?_ hslope
    have e : t - ((D₀ + (j + 1) * D : ℕ) : ℝ) * dt - (t - τ₀ - (j + 1) * τ) = -((D₀ * dt - τ₀) + (j + 1) * (D * dt - τ)) := by
      push_cast
      ring
    rw [e, abs_neg]
    refine (abs_add_le _ _).trans ?_
    rw [abs_mul, abs_of_nonneg (show (0 : ℝ) ≤ j + 1 by positivity)]
    nlinarith [Nat.cast_nonneg (α := ℝ) j]
  refine (norm_sub_le _ _).trans ((add_le_add b1 b2).trans (le_of_eq ?_))
  ring

/-- In a ring filter with a delayed ring no light circulates without delay. -/
theorem ring_timely {k : ℝ} (hk : 0 ≤ k ∧ k ≤ 1) {x y z : Wg} {d : Dev} (hd : LinkedNet (allPassModules k x y z) allPassLinks d)
    (v : ℝ) (wl : W → ℝ) (hx : 0 ≤ x.part.delay v) (hy : 0 ≤ y.part.delay v) (hz : 0 < z.part.delay v) :
    MadeOf (fun _ => True) d ∧ d.comp.terminated = true ∧ (∀ i, 0 ≤ (d.plant v wl).delay i) ∧ portsWith (d.plant v wl).det ≠ [] ∧
      ∀ w, Timely (cx (d.plant v wl).C 0) (cx ((d.plant v wl).rS w) ((d.plant v wl).iS w)) (d.plant v wl).delay := by
  obtain ⟨d', hd', hM, hW⟩ := allPass_wired k x y z
  obtain ⟨d'', hd'', H⟩ := C89_round_trips k hk x y z
  have h1 := hd.2
  rw [hd'.2] at h1
  cases h1
  have h1 := hd.2
  rw [hd''.2] at h1
  cases h1
  obtain ⟨m1, m2⟩ := allPass_marks hW
  have hτ : ∀ i, 0 ≤ (d.plant v wl).delay i := by
    intro i
    obtain ⟨_, p, _, -, hp, -, hdel, -⟩ := plant_port hW.flat v wl i
    rw [hdel]
    simp only [allPassParts, List.mem_cons, List.not_mem_nil, or_false] at hp
    rcases hp with rfl | rfl | rfl | rfl | rfl | rfl
    · exact le_rfl
    · exact hx
    · exact le_rfl
    · exact hy
    · exact le_rfl
    · exact hz.le
  have hdet : portsWith (d.plant v wl).det ≠ [] := by
    intro h0
    have : ([] : List ℕ) = [9] := by
      rw [← m2]
      exact (congrArg (List.map Fin.val) h0).symm
    cases this
  obtain ⟨μ, hμ0, hμ⟩ := least_delay (d.plant v wl).delay hτ
  have hstep : ∀ dt, 0 < dt → dt ≤ z.part.delay v → 0 < z.steps v dt := by
    intro dt hdt hle
    rw [← wg_delay, Nat.pos_iff_ne_zero, Ne, round_zero hz.le hdt fun _ => hle]
    exact hz.ne'
  have htim : ∀ w, Timely (cx (d.plant v wl).C 0) (cx ((d.plant v wl).rS w) ((d.plant v wl).iS w)) (d.plant v wl).delay := by
    set dt := min μ (z.part.delay v) with hdt
    have hdt0 : 0 < dt := lt_min hμ0 hz
    obtain ⟨r, hr, -⟩ := H W Unit v wl ⟨some dt, false, []⟩ dt rfl rfl hdt0 (hstep dt hdt0 (min_le_right _ _))
    exact (C129_solvable d hM hW.term v wl hτ hdet ⟨some dt, false, []⟩ dt rfl rfl hdt0 fun i hi => (min_le_left _ _).trans (hμ i hi)).1 ⟨r, hr⟩
  exact ⟨hM, hW.term, hτ, hdet, htim⟩

/-- C129. The flow of light through a ring on a bus, in continuous time: what leaves the bus at time `t` is what passed the ring, plus what
went around it once, twice, … -/
theorem C129_ring (k : ℝ) (hk : 0 ≤ k ∧ k ≤ 1) (x y z : Wg) :
    ∃ d, LinkedNet (allPassModules k x y z) allPassLinks d ∧ ∀ (W : Type) (v : ℝ) (wl : W → ℝ), 0 ≤ x.part.delay v → 0 ≤ y.part.delay v →
      0 < z.part.delay v → ∀ (s : ℝ → ℂ), (∀ t ≤ 0, s t = 0) → ∀ slope : ℝ, (∀ t t', ‖s t - s t'‖ ≤ slope * |t - t'|) → ∀ w,
      ∃ a, Flows (cx (d.plant v wl).C 0) (cx ((d.plant v wl).rS w) ((d.plant v wl).iS w)) (d.plant v wl).delay
          (fun t => emitted (d.plant v wl).src fun _ => s t) a ∧
        ∀ (J : ℕ) (t : ℝ), t ≤ J * z.part.delay v → (portsWith (d.plant v wl).det).map (a t) =
          [roundTrips k (x.amp (wl w) * y.amp (wl w)) (z.amp (wl w)) s (x.part.delay v + y.part.delay v) (z.part.delay v) J t] := by
  obtain ⟨d, hd, hM, hW⟩ := allPass_wired k x y z
  obtain ⟨m1, m2⟩ := allPass_marks hW
  refine ⟨d, hd, fun W v wl hx hy hz s hs slope hL w => ?_⟩
  obtain ⟨d', hd', H⟩ := C89_round_trips k hk x y z
  obtain rfl : d = d' := by
    have h1 := hd.2
    rw [hd'.2] at h1
    cases h1
    rfl
  obtain ⟨-, -, hτ, hdet, htim⟩ := ring_timely hk hd v wl hx hy hz
  obtain ⟨μ, hμ0, hμ⟩ := least_delay (d.plant v wl).delay hτ
  have hstep : ∀ dt, 0 < dt → dt ≤ z.part.delay v → 0 < z.steps v dt := by
    intro dt hdt hle
    rw [← wg_delay, Nat.pos_iff_ne_zero, Ne, round_zero hz.le hdt fun _ => hle]
    exact hz.ne'
  obtain ⟨a, ha, -, hnear⟩ := C129_refines d hM hW.term v wl hτ hdet htim (fun t _ _ (_ : Unit) => s t) (fun t ht _ _ _ => hs t ht) slope
    (fun t t' _ _ _ => hL t t') w ()
  refine ⟨a, ha, fun J t hJ => ?_⟩
  obtain ⟨i, hi⟩ : ∃ i, portsWith (d.plant v wl).det = [i] := by
    have h1 : (portsWith (d.plant v wl).det).length = 1 := by
      have := congrArg List.length m2
      rw [List.length_map] at this
      exact this
    exact List.length_eq_one_iff.1 h1
  rw [hi, List.map_singleton]
  congr 1
  rcases le_or_gt t 0 with ht | ht
  · have e : roundTrips k (x.amp (wl w) * y.amp (wl w)) (z.amp (wl w)) s (x.part.delay v + y.part.delay v) (z.part.delay v) J t = 0 := by
      unfold roundTrips
      rw [hs _ (by linarith), Finset.sum_eq_zero fun j _ => ?_]
      · ring
      · rw [hs _ (by nlinarith [Nat.cast_nonneg (α := ℝ) j]), mul_zero]
    rw [e, ha.dark t ht]
    rfl
  obtain ⟨K, hK⟩ := hnear t
  obtain ⟨c, hc⟩ := trips_near k hk (x.amp (wl w) * y.amp (wl w)) (z.amp (wl w)) s hs slope hL (x.part.delay v + y.part.delay v) (z.part.delay v) t
    (by linarith) hz J hJ
  rw [← sub_eq_zero]
  obtain ⟨m₁, hm₁⟩ := exists_nat_ge (t / μ)
  obtain ⟨m₂, hm₂⟩ := exists_nat_ge (t * (J + 1) / z.part.delay v)
  refine norm_zero_of_small (c := (K + c) * t) (max (max m₁ m₂) J) fun m hm hpos => ?_
  have hmR : (0 : ℝ) < m := by exact_mod_cast hpos
  set dt := t / m with hdt
  have hdt0 : 0 < dt := by positivity
  have hmd : (m : ℝ) * dt = t := by rw [hdt]; field_simp
  have h1 : dt ≤ μ := by
    rw [hdt, div_le_iff₀ hmR]
    rw [div_le_iff₀ hμ0] at hm₁
    have : (m₁ : ℝ) ≤ m := by exact_mod_cast (le_max_left _ _).trans ((le_max_left _ _).trans hm)
    nlinarith
  have h2 : dt * (J + 1) ≤ z.part.delay v := by
    rw [hdt, div_mul_eq_mul_div, div_le_iff₀ hmR]
    rw [div_le_iff₀ hz] at hm₂
    have : (m₂ : ℝ) ≤ m := by exact_mod_cast (le_max_right _ _).trans ((le_max_left _ _).trans hm)
    nlinarith
  have h3 : dt ≤ z.part.delay v := by nlinarith [Nat.cast_nonneg (α := ℝ) J]
  obtain ⟨r, out, hr, ho, hlen, hclose⟩ := hK ⟨some dt, false, List.replicate (m + 1) 0⟩ dt [] rfl rfl hdt0 fun i hi => h1.trans (hμ i hi)
  obtain ⟨r', hr', H'⟩ := H W Unit v wl ⟨some dt, false, List.replicate (m + 1) 0⟩ dt rfl rfl hdt0 (hstep dt hdt0 h3)
  rw [hr] at hr'
  cases hr'
  obtain ⟨out', ho', -, hout⟩ := H' [] (fun n _ _ _ => ((s (n * dt)).re, (s (n * dt)).im))
  rw [ho] at ho'
  cases ho'
  have hmn : m < out.length := by
    rw [hlen]
    show m < (List.replicate (m + 1) (0 : ℝ)).length
    simp
  have hA := hclose m hmn (le_of_eq hmd)
  have hB := hout m hmn w ()
  rw [hi, hmd] at hA
  have hsrc : (fun n : ℕ => asComplex ((s (n * dt)).re, (s (n * dt)).im)) = fun n : ℕ => s (n * dt) := funext fun n => rfl
  simp only [hsrc, past_sampled s hs dt hdt0, hmd] at hB
  obtain ⟨u, hu⟩ : ∃ u, out[m] w () = [u] := by
    have := congrArg List.length hB
    rw [List.length_map] at this
    exact List.length_eq_one_iff.1 this
  rw [hu] at hA hB
  have hB' := (List.cons_eq_cons.1 hB).1
  have hA' := hA.2 0 u _ rfl rfl
  rw [one_mul] at hA'
  have hn : ∀ g : Wg, 0 ≤ g.part.delay v → |(g.steps v dt : ℝ) * dt - g.part.delay v| ≤ dt / 2 := by
    intro g hg
    rw [abs_sub_comm]
    exact round_near hg hdt0
  have hC := hc dt (x.steps v dt + y.steps v dt) (z.steps v dt) m hdt0 h2 ((le_max_right _ _).trans hm) (by
    have e1 := hn x hx
    have e2 := hn y hy
    have e : (((x.steps v dt + y.steps v dt : ℕ) : ℝ) * dt - (x.part.delay v + y.part.delay v)) =
        ((x.steps v dt : ℝ) * dt - x.part.delay v) + ((y.steps v dt : ℝ) * dt - y.part.delay v) := by push_cast; ring
    rw [e]
    refine (abs_add_le _ _).trans ?_
    linarith) ((hn z hz.le).trans (by linarith))
  rw [← hB'] at hC
  have : a t i - roundTrips k (x.amp (wl w) * y.amp (wl w)) (z.amp (wl w)) s (x.part.delay v + y.part.delay v) (z.part.delay v) J t =
      -(asComplex u - a t i) +
      (asComplex u - roundTrips k (x.amp (wl w) * y.amp (wl w)) (z.amp (wl w)) s (x.part.delay v + y.part.delay v) (z.part.delay v) J t) := by
    ring
  rw [this]
  refine (norm_add_le _ _).trans ?_
  rw [norm_neg]
  have hA2 : ‖asComplex u - a t i‖ < K * dt := hA'
  have e : (K + c) * t / m = K * dt + c * dt := by rw [hdt]; ring
  rw [e]
  exact add_le_add hA2.le hC

/-! ## Examples of use -/

/-- The ring filter of the notebook, with a source that rises with constant slope. -/
example (wl : Fin 1000 → ℝ) : ∃ d, LinkedNet (allPassModules 0.5 nbBus nbBus nbRing) allPassLinks d ∧ ∀ w,
    ∃ a, Flows (cx (d.plant 299792458 wl).C 0) (cx ((d.plant 299792458 wl).rS w) ((d.plant 299792458 wl).iS w)) (d.plant 299792458 wl).delay
        (fun t => emitted (d.plant 299792458 wl).src fun _ => ((max t 0 : ℝ) : ℂ)) a ∧
      ∀ (J : ℕ) (t : ℝ), t ≤ J * nbRing.part.delay 299792458 → (portsWith (d.plant 299792458 wl).det).map (a t) =
        [roundTrips 0.5 (nbBus.amp (wl w) * nbBus.amp (wl w)) (nbRing.amp (wl w)) (fun t => ((max t 0 : ℝ) : ℂ))
          (nbBus.part.delay 299792458 + nbBus.part.delay 299792458) (nbRing.part.delay 299792458) J t] := by
  obtain ⟨d, hd, H⟩ := C129_ring 0.5 (by norm_num) nbBus nbBus nbRing
  have hb : 0 ≤ nbBus.part.delay 299792458 := by
    show (0 : ℝ) ≤ 3.4 * 5e-6 / 299792458
    norm_num
  have hr : 0 < nbRing.part.delay 299792458 := by
    show (0 : ℝ) < 3.4 * 1e-5 / 299792458
    norm_num
  refine ⟨d, hd, H (Fin 1000) 299792458 wl hb hb hr (fun t => ((max t 0 : ℝ) : ℂ)) (fun t ht => by simp [ht]) 1 fun t t' => ?_⟩
  rw [← Complex.ofReal_sub, Complex.norm_real, Real.norm_eq_abs, one_mul]
  exact abs_max_sub_max_le_abs t t' 0

/-- The ring filter of the notebook can be simulated with every time step up to the delay of the bus, 57 fs. -/
example (wl : Fin 1000 → ℝ) : ∃ d, LinkedNet (allPassModules 0.5 nbBus nbBus nbRing) allPassLinks d ∧
    ∃ a : ℝ → Fin d.comp.n → ℂ, ∀ T, ∃ K, ∀ (dt : ℝ) (N : ℕ), 0 < dt → dt ≤ 5e-14 → ∃ r out, initNet (d.plant 299792458 wl) ⟨some dt, false, List.replicate N 0⟩ = .ok (some r) ∧
      forwardReduced r ⟨some dt, false, List.replicate N 0⟩ [] (fun n _ _ (_ : Unit) => (max (n * dt) 0, 0)) = .ok out ∧
      ∀ n (hn : n < out.length), n * dt ≤ T →
        CloseUpTo (K * dt) 1 (out[n] 0 ()) ((portsWith (d.plant 299792458 wl).det).map fun i => ((a (n * dt) i).re, (a (n * dt) i).im)) := by
  obtain ⟨d, hd, -, hW⟩ := allPass_wired 0.5 nbBus nbBus nbRing
  have hb : 5e-14 ≤ nbBus.part.delay 299792458 := by
    show (5e-14 : ℝ) ≤ 3.4 * 5e-6 / 299792458
    norm_num
  have hr : 5e-14 ≤ nbRing.part.delay 299792458 := by
    show (5e-14 : ℝ) ≤ 3.4 * 1e-5 / 299792458
    norm_num
  have hb0 : 0 ≤ nbBus.part.delay 299792458 := le_trans (by norm_num) hb
  obtain ⟨hM, hT, hτ, hdet, htim⟩ := ring_timely (by norm_num) hd 299792458 wl hb0 hb0 (lt_of_lt_of_le (by norm_num) hr)
  obtain ⟨a, -, -, h⟩ := C129_refines d hM hT 299792458 wl hτ hdet htim (fun t _ _ (_ : Unit) => ((max t 0 : ℝ) : ℂ))
    (fun t ht _ _ _ => by simp [ht]) 1 (fun t t' _ _ _ => by
      rw [← Complex.ofReal_sub, Complex.norm_real, Real.norm_eq_abs, one_mul]
      exact abs_max_sub_max_le_abs t t' 0) 0 ()
  refine ⟨d, hd, a, fun T => ?_⟩
  obtain ⟨K, hK⟩ := h T
  refine ⟨K, fun dt N hdt hle => ?_⟩
  obtain ⟨r, out, h1, h2, -, h4⟩ := hK ⟨some dt, false, List.replicate N 0⟩ dt [] rfl rfl hdt fun i hi => by
    obtain ⟨_, p, _, -, hp, -, hdel, -⟩ := plant_port hW.flat (299792458 : ℝ) wl i
    rw [hdel] at hi ⊢
    simp only [allPassParts, List.mem_cons, List.not_mem_nil, or_false] at hp
    rcases hp with rfl | rfl | rfl | rfl | rfl | rfl
    · exact absurd rfl hi
    · exact hle.trans hb
    · exact absurd rfl hi
    · exact hle.trans hb
    · exact absurd rfl hi
    · exact hle.trans hr
  exact ⟨r, out, h1, h2, h4⟩

/-- A loop through a delay of a picosecond is timely. -/
example : Timely (!![0, 1; 1, 0] : Matrix (Fin 2) (Fin 2) ℂ) 1 ![0, 1e-12] := by
  refine C129_delayed _ _ _ fun i h => ?_
  have step : ∀ a b, (![0, 1e-12] : Fin 2 → ℝ) a = 0 ∧
      (∃ j, (!![0, 1; 1, 0] : Matrix (Fin 2) (Fin 2) ℂ) b j ≠ 0 ∧ (1 : Matrix (Fin 2) (Fin 2) ℂ) j a ≠ 0) → a < b := by
    intro a b
    fin_cases a <;> fin_cases b <;> simp [Fin.exists_fin_two]
    norm_num
  have : ∀ a b, Relation.TransGen (fun k i => (![0, 1e-12] : Fin 2 → ℝ) k = 0 ∧
      ∃ j, (!![0, 1; 1, 0] : Matrix (Fin 2) (Fin 2) ℂ) i j ≠ 0 ∧ (1 : Matrix (Fin 2) (Fin 2) ℂ) j k ≠ 0) a b → a < b := by
    intro a b h
    induction h with
    | single h => exact step _ _ h
    | tail _ h ih => exact ih.trans (step _ _ h)
  exact lt_irrefl _ (this _ _ h)

/-- Without the delay it is not. -/
example : ¬Timely (!![0, 1; 1, 0] : Matrix (Fin 2) (Fin 2) ℂ) 1 ![0, 0] := by
  intro h
  have := h ![1, 1] (by ext i; fin_cases i <;> simp [Matrix.mulVec, dotProduct, Fin.sum_univ_two])
  simpa using congrFun this 0

end PT
