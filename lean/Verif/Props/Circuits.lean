import Verif.Proof.FeedForward
import Verif.Props.Parts
import Verif.Props.Settle
import Verif.Props.Terminate

/-!
# C66, C75: whole circuits, from the constructor arguments of the components to the simulated signals
-/

namespace PT
open Spec Matrix

variable {W B : Type}

/-- The delays of the ports of a circuit in time steps. -/
noncomputable def circuitDelay (d : Dev) (v : ℝ) (wl : W → ℝ) (dt : ℝ) (i : Fin d.comp.n) : ℕ :=
  portDelay dt ((d.plant v wl).src i || (d.plant v wl).det i) ((d.plant v wl).delay i)

theorem circuit_mix {d : Dev} {L : List Part} (hf : Flat d L) (v : ℝ) (wl : W → ℝ) (dt : ℝ) (w : W)
    (i j : Fin d.comp.n) (h0 : circuitDelay d v wl dt i = 0) (h1 : circuitDelay d v wl dt j ≠ 0) :
    cx ((d.plant v wl).rS w) ((d.plant v wl).iS w) i j = 0 ∧
      cx ((d.plant v wl).rS w) ((d.plant v wl).iS w) j i = 0 := by
  constructor
  · by_contra h
    obtain ⟨e, s1, s2, d1, d2⟩ := plant_same hf v wl w i j h
    unfold circuitDelay at h0 h1
    rw [s1, d1, e] at h0
    rw [s2, d2] at h1
    exact h1 h0
  · by_contra h
    obtain ⟨e, s1, s2, d1, d2⟩ := plant_same hf v wl w j i h
    unfold circuitDelay at h0 h1
    rw [s2, d2, ← e] at h0
    rw [s1, d1] at h1
    exact h1 h0

/-! ## C66 -/

/-- C66. What is simulated in the time domain for a circuit of components, nested to any depth, is the solution of the
circuit equations made of the scattering matrices and delays of these components. -/
theorem C66_time_domain (d : Dev) (hM : MadeOf (fun _ => True) d) (v : ℝ) (wl : W → ℝ) (env : SimEnv) (dt : ℝ)
    (hdt : env.dt = some dt) (hpos : 0 < dt) (hf : env.freqdomain = false)
    (hd : portsWith (d.plant v wl).det ≠ []) (r : Reduced W) (hr : initNet (d.plant v wl) env = .ok (some r))
    (cs : List (Actor W B)) (src : ℕ → ℕ → W → B → ℝ × ℝ) :
    ∃ out, forwardReduced r env cs src = .ok out ∧ out.length = env.t.length ∧
      ∀ w b, (∃ a b', Solves (cx (d.plant v wl).C 0) (cx ((d.plant v wl).rS w) ((d.plant v wl).iS w))
          (circuitDelay d v wl dt) env.t.length
          (fun t => emitted (d.plant v wl).src fun k => ⟨(src t k w b).1, (src t k w b).2⟩) a b') ∧
        ∀ a b', Solves (cx (d.plant v wl).C 0) (cx ((d.plant v wl).rS w) ((d.plant v wl).iS w))
          (circuitDelay d v wl dt) env.t.length
          (fun t => emitted (d.plant v wl).src fun k => ⟨(src t k w b).1, (src t k w b).2⟩) a b' →
          ∀ t (ht : t < out.length),
            out[t] w b = (portsWith (d.plant v wl).det).map fun i => ((a t i).re, (a t i).im) := by
  obtain ⟨-, L, -, hL⟩ := madeOf_flat hM
  exact C26_time_domain (d.plant v wl) env dt hdt hpos hf (plant_exclusive hL v wl) (plant_act hL v wl) hd
    (circuitDelay d v wl dt) (fun _ => rfl) (circuit_mix hL v wl dt) r hr cs src

/-- C66, the same in the frequency domain. -/
theorem C66_freq_domain (d : Dev) (hM : MadeOf (fun _ => True) d) (v : ℝ) (wl : W → ℝ) (env : SimEnv)
    (hf : env.freqdomain = true) (ht1 : env.t.length = 1)
    (hd : portsWith (d.plant v wl).det ≠ []) (r : Reduced W) (hr : initNet (d.plant v wl) env = .ok (some r))
    (cs : List (Actor W B)) (src : ℕ → ℕ → W → B → ℝ × ℝ) :
    ∃ o, forwardReduced r env cs src = .ok [o] ∧
      ∀ w b, (∃ a b', SolvesStatic (cx (d.plant v wl).C 0) (cx ((d.plant v wl).rS w) ((d.plant v wl).iS w))
          (emitted (d.plant v wl).src fun k => ⟨(src 0 k w b).1, (src 0 k w b).2⟩) a b') ∧
        ∀ a b', SolvesStatic (cx (d.plant v wl).C 0) (cx ((d.plant v wl).rS w) ((d.plant v wl).iS w))
          (emitted (d.plant v wl).src fun k => ⟨(src 0 k w b).1, (src 0 k w b).2⟩) a b' →
          o w b = (portsWith (d.plant v wl).det).map fun i => ((a i).re, (a i).im) := by
  obtain ⟨-, L, -, hL⟩ := madeOf_flat hM
  exact C27_freq_domain (d.plant v wl) env hf ht1 (plant_exclusive hL v wl) (plant_act hL v wl) hd
    (plant_term hL v wl) r hr cs src

/-- C66. The scattering matrix that is simulated is the matrices of the basic components on the diagonal: there is a
list of components (all satisfying `P`) such that port `i` of the circuit is a port of one of them, ports of the same
component scatter like that component, and ports of different components not at all. -/
theorem C66_scattering (P : Part → Prop) (d : Dev) (hM : MadeOf P d) (v : ℝ) (wl : W → ℝ) :
    ∃ (L : List Part) (where_ : Fin d.comp.n → ℕ × ℕ),
      (∀ i, ∃ p, L[(where_ i).1]? = some p ∧ P p ∧ ∃ h : (where_ i).2 < p.n,
        (d.plant v wl).delay i = p.delay v ∧
        ((d.plant v wl).src i = true → p = .source) ∧ ((d.plant v wl).det i = true → p = .detector) ∧
        ∀ w j, ((where_ i).1 ≠ (where_ j).1 → cx ((d.plant v wl).rS w) ((d.plant v wl).iS w) i j = 0) ∧
          ((where_ i).1 = (where_ j).1 → ∃ h' : (where_ j).2 < p.n,
            cx ((d.plant v wl).rS w) ((d.plant v wl).iS w) i j =
              scattering p (wl w) ⟨(where_ i).2, h⟩ ⟨(where_ j).2, h'⟩)) ∧
      d.comp.n = (L.map Part.n).sum := by
  obtain ⟨-, L, hP, hL⟩ := madeOf_flat hM
  have hex : ∀ i : Fin d.comp.n, ∃ q : ℕ × ℕ, ∃ p, partAt L i = some (q.1, p, q.2) := by
    intro i
    obtain ⟨k, p, i', h⟩ := partAt_lt L i (by rw [← hL.n]; exact i.2)
    exact ⟨(k, i'), p, h⟩
  choose q hq using hex
  refine ⟨L, q, ?_, hL.n⟩
  intro i
  obtain ⟨p, hp⟩ := hq i
  obtain ⟨h1, h2⟩ := partAt_mem L i hp
  obtain ⟨k', p', i', hi, hmem, -, hdel, hs, hdt, -⟩ := plant_port hL v wl i
  rw [hp] at hi
  simp only [Option.some.injEq, Prod.mk.injEq] at hi
  obtain ⟨rfl, rfl, rfl⟩ := hi
  refine ⟨p, h1, hP p hmem, h2, hdel, fun h => part_src p _ (hs ▸ h), fun h => part_det p _ (hdt ▸ h), ?_⟩
  intro w j
  obtain ⟨p2, hp2⟩ := hq j
  rw [plant_S hL]
  obtain ⟨c1, c2⟩ := cxBlock_partAt L (wl w) hp hp2
  refine ⟨c1, fun h => ?_⟩
  obtain ⟨_, h', _, he⟩ := c2 h
  exact ⟨h', he⟩

/-- C66. A circuit of components that do not amplify, nested to any depth and fully terminated, never delivers more
energy to the detectors than the sources injected so far. -/
theorem C66_energy (d : Dev) (hM : MadeOf (fun p => ∀ wl, Contracts (scattering p wl)) d)
    (ht : d.comp.terminated = true) (v : ℝ) (wl : W → ℝ) (env : SimEnv) (dt : ℝ)
    (hdt : env.dt = some dt) (hpos : 0 < dt) (hf : env.freqdomain = false)
    (hd : portsWith (d.plant v wl).det ≠ []) (r : Reduced W) (hr : initNet (d.plant v wl) env = .ok (some r))
    (cs : List (Actor W B)) (src : ℕ → ℕ → W → B → ℝ × ℝ) :
    ∃ out, forwardPower r env cs src = .ok out ∧ out.length = env.t.length ∧
      ∀ w b, ∀ n ≤ env.t.length, ((out.take n).map fun f => (f w b).sum).sum ≤
        ∑ t ∈ Finset.range n, ∑ k ∈ Finset.range (portsWith (d.plant v wl).src).length,
          ((src t k w b).1 ^ 2 + (src t k w b).2 ^ 2) := by
  obtain ⟨hc, L, hP, hL⟩ := madeOf_flat hM
  exact C32_energy (d.plant v wl) env dt hdt hpos hf (plant_exclusive hL v wl) (plant_act hL v wl) hd
    (circuitDelay d v wl dt) (fun _ => rfl) (circuit_mix hL v wl dt) (plant_term hL v wl)
    (plant_paired hc ht v wl) (plant_contracts hL v wl hP) r hr cs src

theorem power_balance_le {ι : Type} [Fintype ι] [DecidableEq ι] {C : Matrix ι ι ℝ} (hC : Paired C) (S : Matrix ι ι ℂ)
    (term : ι → Bool) (hS : Contracts S) (hrow : ∀ i, term i = true → ∀ j, S i j = 0 ∧ S j i = 0)
    (s a b : ι → ℂ) (hs : ∀ i, term i = false → s i = 0) (h : SolvesStatic (cx C 0) S s a b) :
    powerAt term a ≤ power s := by
  have h1 : power a ≤ powerAt (fun i => !term i) a + power s := by
    conv_lhs => rw [h.incoming, power_paired hC, h.outgoing]
    rw [power_add_disjoint term _ _ (fun i hi => by simp [Matrix.mulVec, dotProduct, (hrow i hi _).1]) hs,
      ← mulVec_mask S term (fun j hj i => (hrow j hj i).2) a, ← power_mask]
    have := hS (mask term a)
    linarith
  rw [power_split term a] at h1
  linarith

theorem mcAt_of_marked (p : Plant W) (env : SimEnv) (i : Fin p.n) (h : (p.src i || p.det i) = true) :
    p.mcAt env i = true := by
  unfold Plant.mcAt
  rw [h]
  rfl

theorem emitted_off {n : ℕ} (q q' : Fin n → Bool) (c : ℕ → ℂ) (i : Fin n) (h : (q i || q' i) = false) :
    emitted q c i = 0 := by
  rw [Bool.or_eq_false_iff] at h
  simp [emitted, h.1]

theorem powerAt_or_le {n : ℕ} (q q' : Fin n → Bool) (a : Fin n → ℂ) :
    powerAt q' a ≤ powerAt (fun i => q i || q' i) a := by
  unfold powerAt
  refine Finset.sum_le_sum fun i _ => ?_
  have := Complex.normSq_nonneg (a i)
  cases h1 : q i <;> cases h2 : q' i <;> simp [h1, h2, this]

theorem powerAt_or_zero {n : ℕ} (q q' : Fin n → Bool) (a : Fin n → ℂ) (h : ∀ i, q i = true → a i = 0) :
    powerAt (fun i => q i || q' i) a = powerAt q' a := by
  unfold powerAt
  refine Finset.sum_congr rfl fun i _ => ?_
  cases h1 : q i with
  | false => simp [h1]
  | true => rw [h i h1]; simp

/-- C66, the same in the frequency domain: the detected power is at most the injected power. -/
theorem C66_power (d : Dev) (hM : MadeOf (fun p => ∀ wl, Contracts (scattering p wl)) d)
    (ht : d.comp.terminated = true) (v : ℝ) (wl : W → ℝ) (env : SimEnv)
    (hf : env.freqdomain = true) (ht1 : env.t.length = 1)
    (hd : portsWith (d.plant v wl).det ≠ []) (r : Reduced W) (hr : initNet (d.plant v wl) env = .ok (some r))
    (cs : List (Actor W B)) (src : ℕ → ℕ → W → B → ℝ × ℝ) :
    ∃ o, forwardPower r env cs src = .ok [o] ∧ ∀ w b,
      (o w b).sum ≤ ∑ k ∈ Finset.range (portsWith (d.plant v wl).src).length,
        ((src 0 k w b).1 ^ 2 + (src 0 k w b).2 ^ 2) := by
  obtain ⟨hc, L, hP, hL⟩ := madeOf_flat hM
  obtain ⟨o, ho, hsol⟩ := C27_freq_domain (d.plant v wl) env hf ht1 (plant_exclusive hL v wl) (plant_act hL v wl) hd
    (plant_term hL v wl) r hr cs src
  refine ⟨_, by rw [forwardPower, ho]; rfl, fun w b => ?_⟩
  obtain ⟨⟨a, b', h⟩, huniq⟩ := hsol w b
  have hB := power_balance_le (plant_paired hc ht v wl) (cx ((d.plant v wl).rS w) ((d.plant v wl).iS w))
    (fun i => (d.plant v wl).src i || (d.plant v wl).det i) (plant_contracts hL v wl hP w) (plant_term hL v wl w) _ a b'
    (emitted_off _ _ _) h
  rw [power_emitted] at hB
  show (List.map (fun u => u.1 ^ 2 + u.2 ^ 2) (o w b)).sum ≤ _
  rw [huniq a b' h, detected_power]
  have hle := powerAt_or_le (d.plant v wl).src (d.plant v wl).det a
  refine (hle.trans hB).trans (le_of_eq ?_)
  refine Finset.sum_congr rfl fun k _ => ?_
  rw [Complex.normSq_apply]
  ring

/-- C66. A fully terminated circuit of lossless components: the power at the detectors and back at the sources is the
injected power. -/
theorem C66_lossless (d : Dev) (hM : MadeOf IdealOrEnd d) (ht : d.comp.terminated = true) (v : ℝ) (wl : W → ℝ)
    (env : SimEnv) (hf : env.freqdomain = true) (ht1 : env.t.length = 1)
    (hd : portsWith (d.plant v wl).det ≠ []) (r : Reduced W) (hr : initNet (d.plant v wl) env = .ok (some r))
    (cs : List (Actor W B)) (src : ℕ → ℕ → W → B → ℝ × ℝ) :
    ∃ o, forwardPower r env cs src = .ok [o] ∧ ∀ w b,
      ∀ a b', SolvesStatic (cx (d.plant v wl).C 0) (cx ((d.plant v wl).rS w) ((d.plant v wl).iS w))
        (emitted (d.plant v wl).src fun k => ⟨(src 0 k w b).1, (src 0 k w b).2⟩) a b' →
        (o w b).sum + powerAt (d.plant v wl).src a = ∑ k ∈ Finset.range (portsWith (d.plant v wl).src).length,
          ((src 0 k w b).1 ^ 2 + (src 0 k w b).2 ^ 2) := by
  obtain ⟨hc, L, hP, hL⟩ := madeOf_flat hM
  obtain ⟨o, ho, h⟩ := C33_lossless (d.plant v wl) env hf ht1 (plant_exclusive hL v wl) (plant_act hL v wl) hd
    (plant_term hL v wl) (plant_paired hc ht v wl) (plant_lossless hL v wl hP) r hr cs src
  exact ⟨o, ho, fun w b => (h w b).2.1⟩

/-- C66. In a circuit of reciprocal components, exchanging a source and a detector (the same circuit with different
terminations) does not change the transmitted field. -/
theorem C66_reciprocity (d : Dev) (src' det' : List Bool) (d' : Dev)
    (hd' : d' = { d with comp := { d.comp with src := src', det := det' } })
    (hM : MadeOf (fun p => ∀ wl, SymmetricS (scattering p wl)) d)
    (hM' : MadeOf (fun p => ∀ wl, SymmetricS (scattering p wl)) d') (v : ℝ) (wl : W → ℝ)
    (env : SimEnv) (hf : env.freqdomain = true) (ht1 : env.t.length = 1)
    (i j : Fin d.comp.n) (hi : (d.plant v wl).src i = true) (hj : (d.plant v wl).det j = true)
    (hi' : det'.getD i false = true) (hj' : src'.getD j false = true)
    (r r' : Reduced W) (hr : initNet (d.plant v wl) env = .ok (some r))
    (hr' : initNet (d'.plant v wl) env = .ok (some r'))
    (cs cs' : List (Actor W B)) (x : W → B → ℝ × ℝ) :
    ∃ o o',
      forwardReduced r env cs
        (fun _ k w b => if k = (portsWith (d.plant v wl).src).idxOf i then x w b else (0, 0)) = .ok [o] ∧
      forwardReduced r' env cs'
        (fun _ k w b => if k = (portsWith fun i : Fin d.comp.n => src'.getD i false).idxOf j then x w b else (0, 0)) =
          .ok [o'] ∧
      ∀ w b, ∃ u, (o w b)[(portsWith (d.plant v wl).det).idxOf j]? = some u ∧
        (o' w b)[(portsWith fun i : Fin d.comp.n => det'.getD i false).idxOf i]? = some u := by
  obtain ⟨hc, L, hP, hL⟩ := madeOf_flat hM
  obtain ⟨-, L', -, hL'⟩ := madeOf_flat hM'
  subst hd'
  refine C34_reciprocity (d.plant v wl) _ (fun i => src'.getD i false) (fun i => det'.getD i false) rfl env hf ht1
    (plant_exclusive hL v wl) (fun i => (plant_exclusive hL' v wl i).1) (plant_act hL v wl) i j hi hj hi' hj' ?_
    (plant_C_symm hc v wl) (plant_symm hL v wl hP) r r' hr hr' cs cs' x
  intro w k hk l
  rw [Bool.or_assoc, Bool.or_eq_true] at hk
  rcases hk with hk | hk
  · exact plant_term hL v wl w k hk l
  · exact plant_term hL' v wl w k hk l

/-! ## C75 -/

/-- C75. A fully terminated feed-forward circuit with at least one source or detector can be simulated in every
environment. -/
theorem C75_initialized (P : Part → Prop) (d : Dev) (hM : MadeOf P d) (ht : d.comp.terminated = true)
    (front : ℕ → Bool) (rank : ℕ → ℕ) (hff : FeedForward d front rank) (v : ℝ) (wl : W → ℝ) (env : SimEnv)
    (hm : ∃ i, ((d.plant v wl).src i || (d.plant v wl).det i) = true) :
    ∃ r, initNet (d.plant v wl) env = .ok (some r) := by
  obtain ⟨i, hi⟩ := hm
  exact ff_init hff v wl (madeOf_flat hM).1 ht env ⟨i, mcAt_of_marked _ _ i hi⟩

theorem emitted_sum {n : ℕ} (q : Fin n → Bool) (c : ℕ → ℂ) (N : ℕ) (hN : (portsWith q).length = N) :
    emitted q c = ∑ k : Fin N, c k • emitted q fun m => if m = k then 1 else 0 := by
  funext i
  rw [Finset.sum_apply]
  unfold emitted
  simp only [Pi.smul_apply, smul_eq_mul]
  cases hq : q i with
  | false => simp [hq]
  | true =>
    have hlt : (portsWith q).idxOf i < N := by
      rw [← hN, List.idxOf_lt_length_iff]; simp [portsWith, hq]
    rw [Finset.sum_eq_single ⟨_, hlt⟩]
    · simp [hq]
    · intro k _ hk
      rw [if_pos (by simp [hq]), if_neg, mul_zero]
      rintro h
      exact hk (Fin.ext h.symm)
    · simp

/-- C75. A fully terminated feed-forward circuit of lossless components with `N` sources (on the front side) and `N`
detectors transforms the source amplitudes into the detected amplitudes by a unitary matrix, at every wavelength. -/
theorem C75_unitary (d : Dev) (hM : MadeOf IdealOrEnd d) (ht : d.comp.terminated = true)
    (front : ℕ → Bool) (rank : ℕ → ℕ) (hff : FeedForward d front rank) (v : ℝ) (wl : W → ℝ)
    (hsrc : ∀ i, (d.plant v wl).src i = true → front i = false) (N : ℕ) (hpos : 0 < N)
    (hN : (portsWith (d.plant v wl).src).length = N) (hN' : (portsWith (d.plant v wl).det).length = N)
    (env : SimEnv) (hf : env.freqdomain = true) (ht1 : env.t.length = 1) :
    ∃ r, initNet (d.plant v wl) env = .ok (some r) ∧
      ∃ U : W → Matrix (Fin N) (Fin N) ℂ, (∀ w, U w ∈ Matrix.unitaryGroup (Fin N) ℂ) ∧
        ∀ (B : Type) (cs : List (Actor W B)) (src : ℕ → ℕ → W → B → ℝ × ℝ),
          ∃ o, forwardReduced r env cs src = .ok [o] ∧
            ∀ w b, (o w b).map asComplex = List.ofFn (U w *ᵥ fun k => asComplex (src 0 k w b)) := by
  obtain ⟨hc, L, hP, hL⟩ := madeOf_flat hM
  have hd : portsWith (d.plant v wl).det ≠ [] := by
    intro h0; rw [h0] at hN'; simp only [List.length_nil] at hN'; omega
  obtain ⟨i₀, hi₀⟩ := List.exists_mem_of_ne_nil _ hd
  obtain ⟨r, hr⟩ := ff_init hff v wl hc ht env ⟨i₀, mcAt_of_marked _ _ i₀ (by
    simp only [portsWith, List.mem_filter] at hi₀
    rw [Bool.or_eq_true]
    exact .inr hi₀.2)⟩
  refine ⟨r, hr, ?_⟩
  have C27 := fun (B : Type) => C27_freq_domain (B := B) (d.plant v wl) env hf ht1 (plant_exclusive hL v wl)
    (plant_act hL v wl) hd (plant_term hL v wl) r hr
  set p := d.plant v wl with hp
  -- the response to a unit signal in channel `k`
  have hunit : ∀ (w : W) (k : Fin N), ∃ a b', SolvesStatic (cx p.C 0) (cx (p.rS w) (p.iS w))
      (emitted p.src fun m => if m = k then 1 else 0) a b' := by
    intro w k
    obtain ⟨o, -, h⟩ := C27 Unit [] (fun _ m _ _ => if m = (k : ℕ) then (1, 0) else (0, 0))
    obtain ⟨⟨a, b', hab⟩, -⟩ := h w ()
    refine ⟨a, b', ?_⟩
    have he : (fun m => (⟨(if m = (k : ℕ) then ((1 : ℝ), (0 : ℝ)) else (0, 0)).1,
        (if m = (k : ℕ) then ((1 : ℝ), (0 : ℝ)) else (0, 0)).2⟩ : ℂ)) =
        fun m => if m = (k : ℕ) then (1 : ℂ) else 0 := by
      funext m
      split <;> rfl
    rw [he] at hab
    exact hab
  choose a b' hab using hunit
  have hcomb : ∀ (w : W) (c : ℕ → ℂ), SolvesStatic (cx p.C 0) (cx (p.rS w) (p.iS w)) (emitted p.src c)
      (∑ k : Fin N, c k • a w k) (∑ k : Fin N, c k • b' w k) := by
    intro w c
    constructor
    · rw [Matrix.mulVec_sum]
      refine Finset.sum_congr rfl fun k _ => ?_
      rw [Matrix.mulVec_smul, ← (hab w k).incoming]
    · rw [Matrix.mulVec_sum, emitted_sum p.src c N hN, ← Finset.sum_add_distrib]
      refine Finset.sum_congr rfl fun k _ => ?_
      rw [Matrix.mulVec_smul, ← smul_add, ← (hab w k).outgoing]
  let U : W → Matrix (Fin N) (Fin N) ℂ := fun w => Matrix.of fun m k =>
    a w k ((portsWith p.det).get ⟨m, by rw [hN']; exact m.2⟩)
  refine ⟨U, ?_, ?_⟩
  · intro w
    have hpow : ∀ x : Fin N → ℂ, power (U w *ᵥ x) = power x := by
      intro x
      set c : ℕ → ℂ := fun m => if h : m < N then x ⟨m, h⟩ else 0 with hcdef
      have hck : ∀ k : Fin N, c k = x k := fun k => by simp [hcdef]
      have hs := hcomb w c
      have hB := power_balance (plant_paired hc ht v wl) (cx (p.rS w) (p.iS w)) (fun i => p.src i || p.det i)
        (plant_lossless hL v wl hP w) (fun i hi j => (plant_term hL v wl w i hi j).1) _ _ _ (emitted_off _ _ _) hs
      have hz := ff_no_return hff v wl hc hsrc w c _ _ hs
      rw [power_emitted, hN] at hB
      have h1 : powerAt (fun i => p.src i || p.det i) (∑ k : Fin N, c k • a w k) =
          powerAt p.det (∑ k : Fin N, c k • a w k) := powerAt_or_zero _ _ _ fun i hi => hz i (hsrc i hi)
      have h2 : powerAt p.det (∑ k : Fin N, c k • a w k) = power (U w *ᵥ x) := by
        have e : powerAt p.det (∑ k : Fin N, c k • a w k) =
            ((portsWith p.det).map fun i => Complex.normSq ((∑ k : Fin N, c k • a w k) i)).sum := by
          rw [portsWith_sum]; rfl
        rw [e]
        unfold power
        have e2 : ((portsWith p.det).map fun i => Complex.normSq ((∑ k : Fin N, c k • a w k) i)) =
            List.ofFn fun m : Fin N => Complex.normSq ((U w *ᵥ x) m) := by
          apply List.ext_getElem
          · simp [hN']
          · intro m h1 h2
            rw [List.getElem_map, List.getElem_ofFn]
            congr 1
            rw [Finset.sum_apply]
            simp only [Matrix.mulVec, dotProduct]
            refine Finset.sum_congr rfl fun k _ => ?_
            rw [Pi.smul_apply, smul_eq_mul, hck, mul_comm]
            rfl
        rw [e2, List.sum_ofFn]
      have h3 : ∑ k ∈ Finset.range N, Complex.normSq (c k) = power x := by
        unfold power
        rw [← Fin.sum_univ_eq_sum_range (fun k => Complex.normSq (c k))]
        refine Finset.sum_congr rfl fun k _ => ?_
        rw [hck]
      rw [← h2, ← h1, hB, h3]
    have hl := lossless_of_power (U w) (fun _ => false) (fun x => by
      rw [hpow]; simp [power, powerAt])
    rw [Matrix.mem_unitaryGroup_iff']
    ext i j
    have := hl i j
    rw [Matrix.mul_apply]
    simp only [Matrix.star_apply]
    rw [this, Matrix.one_apply]
    simp
  · intro B cs src
    obtain ⟨o, ho, h⟩ := C27 B cs src
    refine ⟨o, ho, fun w b => ?_⟩
    have hs := hcomb w fun k => asComplex (src 0 k w b)
    rw [(h w b).2 _ _ hs, List.map_map]
    apply List.ext_getElem
    · simp [hN']
    · intro m h1 h2
      rw [List.getElem_map, List.getElem_ofFn]
      simp only [Function.comp_apply, asComplex]
      have : ∀ z : ℂ, (⟨z.re, z.im⟩ : ℂ) = z := fun z => rfl
      rw [this, Finset.sum_apply]
      simp only [Matrix.mulVec, dotProduct]
      refine Finset.sum_congr rfl fun k _ => ?_
      rw [Pi.smul_apply, smul_eq_mul, mul_comm]
      rfl

/-! ## A circuit satisfying the hypotheses -/

/-- A lossy waveguide between two terminations. -/
noncomputable def exLineDevs (a b : Part) : List (Str × Dev) :=
  [(['a'], a.dev), (['w'], (Part.waveguide 1e-5 100 2.34 1.55e-6 3.4 1).dev), (['b'], b.dev)]
def exLineComps (a b : Comp) : Comps := [(['a'], a), (['w'], passive 2), (['b'], b)]
def exLineCs : List Conn := [.inner ['a'] 0 ['w'] 0, .inner ['w'] 1 ['b'] 0]

theorem exLine_nets : ∃ c c', mkNet none (exLineComps source detector) (exLineCs.map Conn.text) = .ok c ∧
    mkNet none (exLineComps detector source) (exLineCs.map Conn.text) = .ok c' ∧
    c' = { c with src := [false, false, false, true], det := [true, false, false, false] } ∧ c.n = 4 ∧
    c.src = [true, false, false, false] ∧ c.det = [false, false, false, true] ∧ c.terminated = true ∧
    ∀ i j, c.C i j ≠ 0 → (i = 0 ∧ j = 1) ∨ (i = 1 ∧ j = 0) ∨ (i = 2 ∧ j = 3) ∨ (i = 3 ∧ j = 2) := by
  have hk : okAnd (mkNet none (exLineComps source detector) (exLineCs.map Conn.text)) (fun c =>
      okAnd (mkNet none (exLineComps detector source) (exLineCs.map Conn.text)) fun c' =>
        decide (c'.name = c.name) && decide (c'.n = 4 ∧ c.n = 4) && decide (c'.portOrder = c.portOrder) &&
          decide (c'.act = c.act ∧ c'.isNet = c.isNet) && ((List.range 4).all fun i => (List.range 4).all fun j => decide (c'.C i j = c.C i j)) &&
          decide (c.src = [true, false, false, false] ∧ c.det = [false, false, false, true]) &&
          decide (c'.det = [true, false, false, false] ∧ c'.src = [false, false, false, true]) && c.terminated &&
          (List.range 4).all fun i => (List.range 4).all fun j =>
            decide (c.C i j ≠ 0 → (i = 0 ∧ j = 1) ∨ (i = 1 ∧ j = 0) ∨ (i = 2 ∧ j = 3) ∨ (i = 3 ∧ j = 2))) =
      true := by decide +kernel
  obtain ⟨c, hc, hk⟩ := okAnd_iff.mp hk
  obtain ⟨c', hc', hk⟩ := okAnd_iff.mp hk
  simp only [Bool.and_eq_true, decide_eq_true_eq, List.all_eq_true, List.mem_range] at hk
  obtain ⟨⟨⟨⟨⟨⟨⟨⟨k1, k2, k3⟩, k4⟩, k5, k6⟩, k7⟩, k8, k9⟩, k10, k11⟩, k12⟩, k13⟩ := hk
  have hb : ∀ x y : Comp, Built x → Built y → ∀ c, mkNet none (exLineComps x y) (exLineCs.map Conn.text) = .ok c →
      Built c := by
    intro x y hx hy c hc
    refine .net none _ _ c ?_ hc
    intro p hp
    simp only [exLineComps, List.mem_cons, List.not_mem_nil, or_false] at hp
    rcases hp with rfl | rfl | rfl
    · exact hx
    · exact (passive_clean 2 (by omega)).built
    · exact hy
  have r := built_reciprocal (hb _ _ leaf_onePort.2.1.1 leaf_onePort.2.2.1 c hc)
  have r' := built_reciprocal (hb _ _ leaf_onePort.2.2.1 leaf_onePort.2.1.1 c' hc')
  rw [k3] at r
  rw [k2] at r'
  refine ⟨c, c', hc, hc', ?_, k3, k8, k9, k12, ?_⟩
  · have hC : c'.C = c.C := by
      funext i j
      by_cases h : i < 4 ∧ j < 4
      · exact k7 i h.1 j h.2
      · by_contra hne
        rcases r.2.1 i j with h0 | h0
        · rw [h0] at hne; exact h (r'.2.2 i j hne)
        · exact h (r.2.2 i j (by rw [h0]; norm_num))
    cases c
    cases c'
    simp only [Comp.mk.injEq] at *
    simp_all
  · intro i j h
    obtain ⟨h1, h2⟩ := r.2.2 i j h
    exact k13 i h1 j h2 h

theorem exLine_used (a b : Part) : usedDevs (exLineDevs a b) (usedNames ((exLineCs.map Conn.text).map stripConn)) =
    exLineDevs a b := by
  have h : usedNames ((exLineCs.map Conn.text).map stripConn) = [['a'], ['w'], ['b']] := by decide +kernel
  rw [h]
  rfl

theorem exLine_made (P : Part → Prop) (a b : Part) (ha : P a ∧ a.n = 1) (hb : P b ∧ b.n = 1)
    (hw : P (Part.waveguide 1e-5 100 2.34 1.55e-6 3.4 1)) (d : Dev)
    (hd : mkDev none (exLineDevs a b) (exLineCs.map Conn.text) = .ok d) : MadeOf P d := by
  refine .net none (exLineDevs a b) exLineCs d ?_ (goodConns_dec (by decide +kernel)) ⟨by decide, by decide⟩ ?_ hd
  · intro p hp
    simp only [exLineDevs, List.mem_cons, List.not_mem_nil, or_false] at hp
    rcases hp with rfl | rfl | rfl
    · exact .part a ha.1 (by rw [ha.2]; omega)
    · exact .part _ hw (by show 0 < 2; omega)
    · exact .part b hb.1 (by rw [hb.2]; omega)
  · exact ⟨by decide, by decide, by decide⟩

/-- The line and the same line with source and detector exchanged. -/
theorem exLine_devs : ∃ d d', mkDev none (exLineDevs .source .detector) (exLineCs.map Conn.text) = .ok d ∧
    mkDev none (exLineDevs .detector .source) (exLineCs.map Conn.text) = .ok d' ∧
    d' = { d with comp := { d.comp with src := [false, false, false, true], det := [true, false, false, false] } } ∧
    d.comp.n = 4 ∧ d.comp.src = [true, false, false, false] ∧ d.comp.det = [false, false, false, true] ∧
    d.comp.terminated = true ∧ FeedForward d (fun i => i % 2 == 1) (fun i => (i + 1) / 2) := by
  obtain ⟨c, c', hc, hc', he, hn, hs, hdt, ht, hC⟩ := exLine_nets
  refine ⟨netDev c (exLineDevs .source .detector), netDev c' (exLineDevs .detector .source), ?_, ?_, ?_, hn, hs, hdt, ht, ?_⟩
  · unfold mkDev
    rw [exLine_used]
    exact congrArg (Except.map fun c => netDev c (exLineDevs .source .detector)) hc
  · unfold mkDev
    rw [exLine_used]
    exact congrArg (Except.map fun c => netDev c (exLineDevs .detector .source)) hc'
  · rw [he]
    rfl
  · constructor
    · intro wl i j hi hj h
      change i < c.n at hi
      change j < c.n at hj
      rw [hn] at hi hj
      have key : ∀ A M B : ℕ → ℕ → ℝ, A 0 0 = 0 → B 0 0 = 0 → M 0 0 = 0 → M 1 1 = 0 →
          blockMat [(1, A), (2, M), (1, B)] i j ≠ 0 → (i = 1 ∧ j = 2) ∨ (i = 2 ∧ j = 1) := by
        intro A M B hA hB hM hM' h
        have hi' : i = 0 ∨ i = 1 ∨ i = 2 ∨ i = 3 := by omega
        have hj' : j = 0 ∨ j = 1 ∨ j = 2 ∨ j = 3 := by omega
        rcases hi' with rfl | rfl | rfl | rfl <;> rcases hj' with rfl | rfl | rfl | rfl <;>
          simp [blockMat, hA, hB, hM, hM'] at h ⊢
      have hz : ∀ k, (hk : k < 2) → cx (waveguideS 1e-5 100 2.34 1.55e-6 3.4 1 wl).re
          (waveguideS 1e-5 100 2.34 1.55e-6 3.4 1 wl).im ⟨k, hk⟩ ⟨k, hk⟩ = 0 := by
        intro k hk
        rw [waveguide_shape]
        have : k = 0 ∨ k = 1 := by omega
        rcases this with rfl | rfl <;> rfl
      have z0 := hz 0 (by omega)
      have z1 := hz 1 (by omega)
      have : (i = 1 ∧ j = 2) ∨ (i = 2 ∧ j = 1) := by
        rcases h with h | h
        · exact key _ _ _ rfl rfl (congrArg Complex.re z0) (congrArg Complex.re z1) h
        · exact key _ _ _ rfl rfl (congrArg Complex.im z0) (congrArg Complex.im z1) h
      rcases this with ⟨rfl, rfl⟩ | ⟨rfl, rfl⟩ <;> decide
    · intro i j h
      rcases hC i j h with ⟨rfl, rfl⟩ | ⟨rfl, rfl⟩ | ⟨rfl, rfl⟩ | ⟨rfl, rfl⟩ <;> decide

theorem exLine_det {d : Dev} (hn : d.comp.n = 4) (h : d.comp.det = [false, false, false, true]) (v : ℝ) (wl : W → ℝ) :
    portsWith (d.plant v wl).det ≠ [] := by
  have hm : (⟨3, by rw [hn]; omega⟩ : Fin d.comp.n) ∈ portsWith (d.plant v wl).det := by
    simp [portsWith, Dev.plant, h]
  intro h0
  rw [h0] at hm
  cases hm

/-- The line can be simulated in every environment. -/
theorem exLine_init : ∃ d, MadeOf (fun p => ∀ wl, Contracts (scattering p wl)) d ∧ d.comp.n = 4 ∧
    d.comp.src = [true, false, false, false] ∧ d.comp.det = [false, false, false, true] ∧ d.comp.terminated = true ∧
    ∀ (v : ℝ) (wl : W → ℝ) env, ∃ r, initNet (d.plant v wl) env = .ok (some r) := by
  obtain ⟨d, d', hd, -, -, hn, hs, hdt, ht, hff⟩ := exLine_devs
  have hM := exLine_made (fun p => ∀ wl, Contracts (scattering p wl)) .source .detector
    ⟨C65_contracts_partial .source trivial (by simp), rfl⟩ ⟨C65_contracts_partial .detector trivial (by simp), rfl⟩
    (C65_contracts_partial _ (by constructor <;> norm_num) (by simp)) d hd
  refine ⟨d, hM, hn, hs, hdt, ht, fun v wl env => C75_initialized _ d hM ht _ _ hff v wl env ?_⟩
  exact ⟨⟨3, by show 3 < d.comp.n; omega⟩, by simp [Dev.plant, hdt]⟩

/-- C66 (energy) for the lossy line. -/
example (v : ℝ) (wl : W → ℝ) (t : List ℝ) (src : ℕ → ℕ → W → B → ℝ × ℝ) :
    ∃ (d : Dev) (r : Reduced W), initNet (d.plant v wl) ⟨some 1e-14, false, t⟩ = .ok (some r) ∧
      ∃ out, forwardPower r ⟨some 1e-14, false, t⟩ [] src = .ok out ∧ out.length = t.length := by
  obtain ⟨d, hM, hn, -, hdt, ht, hi⟩ := exLine_init (W := W)
  obtain ⟨r, hr⟩ := hi v wl ⟨some 1e-14, false, t⟩
  obtain ⟨out, h1, h2, -⟩ := C66_energy d hM ht v wl _ 1e-14 rfl (by norm_num) rfl (exLine_det hn hdt v wl) r hr [] src
  exact ⟨d, r, hr, out, h1, h2⟩

/-- C66 (reciprocity): the line with exchanged ends satisfies the hypotheses. -/
example (v : ℝ) (wl : W → ℝ) : ∃ (d d' : Dev) (i j : Fin d.comp.n) (src' det' : List Bool),
    d' = { d with comp := { d.comp with src := src', det := det' } } ∧ i ≠ j ∧
    MadeOf (fun p => ∀ wl, SymmetricS (scattering p wl)) d ∧ MadeOf (fun p => ∀ wl, SymmetricS (scattering p wl)) d' ∧
    (d.plant v wl).src i = true ∧ (d.plant v wl).det j = true ∧ det'.getD i false = true ∧ src'.getD j false = true := by
  obtain ⟨d, d', hd, hd', he, hn, hs, hdt, -⟩ := exLine_devs
  have h1 : ∀ wl, SymmetricS (scattering .source wl) := C43_reciprocal_partial _ (by simp)
  have h2 : ∀ wl, SymmetricS (scattering .detector wl) := C43_reciprocal_partial _ (by simp)
  have h3 : ∀ wl, SymmetricS (scattering (.waveguide 1e-5 100 2.34 1.55e-6 3.4 1) wl) :=
    C43_reciprocal_partial _ (by simp)
  refine ⟨d, d', ⟨0, by omega⟩, ⟨3, by omega⟩, _, _, he, by simp,
    exLine_made _ _ _ ⟨h1, rfl⟩ ⟨h2, rfl⟩ h3 d hd, exLine_made _ _ _ ⟨h2, rfl⟩ ⟨h1, rfl⟩ h3 d' hd', ?_, ?_, rfl, rfl⟩
  · simp [Dev.plant, hs]
  · simp [Dev.plant, hdt]

/-! ## Examples of use -/

theorem madeOf_any {P : Part → Prop} {d : Dev} (h : MadeOf P d) : MadeOf (fun _ => True) d := by
  induction h with
  | part p _ h => exact .part p trivial h
  | named d x _ ih => exact .named d x ih
  | net name modules cs d _ hg hu hc h ih => exact .net name modules cs d ih hg hu hc h


/-- The lossy line in the frequency domain and in time: its circuit equations have a solution, and it is what is detected. -/
example (v : ℝ) (wl : W → ℝ) (src : ℕ → ℕ → W → B → ℝ × ℝ) :
    ∃ (d : Dev) (r : Reduced W), initNet (d.plant v wl) ⟨none, true, [0]⟩ = .ok (some r) ∧
      ∃ o, forwardReduced r ⟨none, true, [0]⟩ [] src = .ok [o] ∧ ∀ w b, ∃ a b',
        SolvesStatic (cx (d.plant v wl).C 0) (cx ((d.plant v wl).rS w) ((d.plant v wl).iS w))
          (emitted (d.plant v wl).src fun k => ⟨(src 0 k w b).1, (src 0 k w b).2⟩) a b' ∧
        o w b = (portsWith (d.plant v wl).det).map fun i => ((a i).re, (a i).im) := by
  obtain ⟨d, hM, hn, -, hdt, ht, hi⟩ := exLine_init (W := W)
  obtain ⟨r, hr⟩ := hi v wl ⟨none, true, [0]⟩
  obtain ⟨o, h1, h2⟩ := C66_freq_domain d (madeOf_any hM) v wl _ rfl rfl (exLine_det hn hdt v wl) r hr [] src
  refine ⟨d, r, hr, o, h1, fun w b => ?_⟩
  obtain ⟨⟨a, b', h3⟩, h4⟩ := h2 w b
  exact ⟨a, b', h3, h4 a b' h3⟩

example (v : ℝ) (wl : W → ℝ) (t : List ℝ) (src : ℕ → ℕ → W → B → ℝ × ℝ) :
    ∃ (d : Dev) (r : Reduced W), initNet (d.plant v wl) ⟨some 1e-14, false, t⟩ = .ok (some r) ∧
      ∃ out, forwardReduced r ⟨some 1e-14, false, t⟩ [] src = .ok out ∧ out.length = t.length := by
  obtain ⟨d, hM, hn, -, hdt, ht, hi⟩ := exLine_init (W := W)
  obtain ⟨r, hr⟩ := hi v wl ⟨some 1e-14, false, t⟩
  obtain ⟨out, h1, h2, -⟩ := C66_time_domain d (madeOf_any hM) v wl _ 1e-14 rfl (by norm_num) rfl
    (exLine_det hn hdt v wl) r hr [] src
  exact ⟨d, r, hr, out, h1, h2⟩

/-- No more power is detected at the end of the line than was put in. -/
example (v : ℝ) (wl : W → ℝ) (src : ℕ → ℕ → W → B → ℝ × ℝ) :
    ∃ (d : Dev) (r : Reduced W), initNet (d.plant v wl) ⟨none, true, [0]⟩ = .ok (some r) ∧
      ∃ o, forwardPower r ⟨none, true, [0]⟩ [] src = .ok [o] ∧ ∀ w b,
        (o w b).sum ≤ ∑ k ∈ Finset.range (portsWith (d.plant v wl).src).length, ((src 0 k w b).1 ^ 2 + (src 0 k w b).2 ^ 2) := by
  obtain ⟨d, hM, hn, -, hdt, ht, hi⟩ := exLine_init (W := W)
  obtain ⟨r, hr⟩ := hi v wl ⟨none, true, [0]⟩
  obtain ⟨o, h1, h2⟩ := C66_power d hM ht v wl _ rfl rfl (exLine_det hn hdt v wl) r hr [] src
  exact ⟨d, r, hr, o, h1, h2⟩

/-- The delays and the scattering of the line are those of its three parts. -/
example (v : ℝ) (wl : W → ℝ) : ∃ (d : Dev) (L : List Part), d.comp.n = 4 ∧ d.comp.n = (L.map Part.n).sum := by
  obtain ⟨d, hM, hn, -⟩ := exLine_init (W := W)
  obtain ⟨L, -, -, h⟩ := C66_scattering _ d hM v wl
  exact ⟨d, L, hn, h⟩

/-- Light sent from the other end arrives with the same amplitude. -/
example (v : ℝ) (wl : W → ℝ) (x : W → B → ℝ × ℝ) : ∃ (d d' : Dev) (r r' : Reduced W) (o o' : W → B → List (ℝ × ℝ)) (k k' m m' : ℕ),
    mkDev none (exLineDevs .source .detector) (exLineCs.map Conn.text) = .ok d ∧
    mkDev none (exLineDevs .detector .source) (exLineCs.map Conn.text) = .ok d' ∧
    initNet (d.plant v wl) ⟨none, true, [0]⟩ = .ok (some r) ∧ initNet (d'.plant v wl) ⟨none, true, [0]⟩ = .ok (some r') ∧
    forwardReduced r ⟨none, true, [0]⟩ [] (fun _ j w b => if j = k then x w b else (0, 0)) = .ok [o] ∧
    forwardReduced r' ⟨none, true, [0]⟩ [] (fun _ j w b => if j = k' then x w b else (0, 0)) = .ok [o'] ∧
    ∀ w b, ∃ u, (o w b)[m]? = some u ∧ (o' w b)[m']? = some u := by
  obtain ⟨d, d', hd, hd', he, hn, hs, hdt, ht, hff⟩ := exLine_devs
  have h1 : ∀ wl, SymmetricS (scattering .source wl) := C43_reciprocal_partial _ (by simp)
  have h2 : ∀ wl, SymmetricS (scattering .detector wl) := C43_reciprocal_partial _ (by simp)
  have h3 : ∀ wl, SymmetricS (scattering (.waveguide 1e-5 100 2.34 1.55e-6 3.4 1) wl) := C43_reciprocal_partial _ (by simp)
  have hM := exLine_made (fun p => ∀ wl, SymmetricS (scattering p wl)) _ _ ⟨h1, rfl⟩ ⟨h2, rfl⟩ h3 d hd
  have hM' := exLine_made (fun p => ∀ wl, SymmetricS (scattering p wl)) _ _ ⟨h2, rfl⟩ ⟨h1, rfl⟩ h3 d' hd'
  have ht' : d'.comp.terminated = true := by rw [he]; exact ht
  have hff' : FeedForward d' (fun i => i % 2 == 1) (fun i => (i + 1) / 2) := by rw [he]; exact ⟨hff.scatter, hff.connect⟩
  obtain ⟨r, hr⟩ := C75_initialized _ d hM ht _ _ hff v wl ⟨none, true, [0]⟩ ⟨⟨3, by show 3 < d.comp.n; omega⟩, by simp [Dev.plant, hdt]⟩
  obtain ⟨r', hr'⟩ := C75_initialized _ d' hM' ht' _ _ hff' v wl ⟨none, true, [0]⟩
    ⟨⟨3, by show 3 < d'.comp.n; rw [he]; show 3 < d.comp.n; omega⟩, by simp [Dev.plant, he]⟩
  obtain ⟨o, o', h4, h5, h6⟩ := C66_reciprocity d _ _ d' he hM hM' v wl ⟨none, true, [0]⟩ rfl rfl ⟨0, by omega⟩ ⟨3, by omega⟩
    (by simp [Dev.plant, hs]) (by simp [Dev.plant, hdt]) rfl rfl r r' hr hr' [] [] x
  exact ⟨d, d', r, r', o, o', _, _, _, _, hd, hd', hr, hr', h4, h5, h6⟩

end PT
