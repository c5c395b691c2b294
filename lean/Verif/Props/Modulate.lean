import Verif.Proof.MeshTerm
import Verif.Proof.Settled
import Verif.Props.Circuits
import Verif.Props.Dispersion

/-!
# C82, C83: settling, and modulated sources
-/

namespace PT
open Spec Matrix

variable {W B : Type}

/-- A circuit that could be initialized has no instantaneous feedback without a source. -/
theorem no_instant (p : Plant W) (env : SimEnv) (dt : ℝ) (hdt : env.dt = some dt) (hf : env.freqdomain = false)
    (hx : p.Exclusive) (hact : ∀ i, p.act i = false) (d : Fin p.n → ℕ)
    (hdelay : ∀ i, d i = portDelay dt (p.src i || p.det i) (p.delay i))
    (hmix : ∀ w i j, d i = 0 → d j ≠ 0 → cx (p.rS w) (p.iS w) i j = 0 ∧ cx (p.rS w) (p.iS w) j i = 0)
    (r : Reduced W) (hr : initNet p env = .ok (some r)) (w : W) (v : Fin p.n → ℂ)
    (hv : v = (cx p.C 0 * cx (p.rS w) (p.iS w)) *ᵥ (fun k => if d k = 0 then v k else 0)) : v = 0 := by
  obtain ⟨-, C, hC, rfl⟩ := initNet_some hr
  have hd : ∀ i, p.stepDelay env i = d i := by
    intro i
    rw [stepDelay_time p env dt hdt hf, hdelay]
    congr 1
    unfold Plant.marked
    rw [hact i, Bool.or_false]
  have hmc : ∀ k, d ((p.mcOrder env).get k) ≠ 0 := fun k => by
    rw [← hd, stepDelay_mc p env _ ((mem_mcOrder p env _).1 (List.get_mem _ k))]; omega
  have hml : ∀ k, d ((p.mlPorts env).get k) = 0 := fun k => by
    rw [← hd, stepDelay_ml p env _ ((mem_mlPorts p env _).1 (List.get_mem _ k))]
  have hsp := plant_splits p env hx
  have hdec := noMix_decoupled p env w fun i j hi hj => by
    rw [hd] at hi hj
    exact hmix w i j hi hj
  rw [← Matrix.mulVec_mulVec] at hv
  have key := hsp.reduce p.Cx (p.Sx w) hdec (reduced_redC p env C w hC).1 v
    (p.Sx w *ᵥ fun k => if d k = 0 then v k else 0) (fun k => if d k = 0 then v k else 0) 0 hv (by simp)
    (by funext k; simp only [Function.comp_apply, if_pos (hml k)]) rfl
  have z : (0 : Fin p.n → ℂ) ∘ (p.mcOrder env).get = 0 := rfl
  have z' : (fun k => if d k = 0 then v k else 0) ∘ (p.mcOrder env).get = 0 := by
    funext k
    simp only [Function.comp_apply, if_neg (hmc k), Pi.zero_apply]
  rw [z, z', Matrix.mulVec_zero, add_zero, Matrix.mulVec_zero, Matrix.mulVec_zero] at key
  exact hsp.ext (fun k => congrFun key.2 k) fun k => congrFun key.1 k

/-- A circuit in which no light circulates without a source can be initialized in the frequency domain. -/
theorem freq_initialized (p : Plant W) (env : SimEnv) (hf : env.freqdomain = true) (hT : p.terminated)
    (hx : p.Exclusive) (hact : ∀ i, p.act i = false) (hd : portsWith p.det ≠ [])
    (hterm : ∀ w i, (p.src i || p.det i) = true → ∀ j, cx (p.rS w) (p.iS w) i j = 0 ∧ cx (p.rS w) (p.iS w) j i = 0)
    (hnull : ∀ w (a : Fin p.n → ℂ), a = cx p.C 0 *ᵥ (cx (p.rS w) (p.iS w) *ᵥ a) → a = 0) :
    ∃ r, initNet p env = .ok (some r) := by
  refine C26_initialized p env hT ?_ fun w h0 => ?_
  · obtain ⟨i, hi⟩ := List.exists_mem_of_ne_nil _ hd
    refine ⟨i, mcAt_of_marked p env i ?_⟩
    simp only [portsWith, List.mem_filter] at hi
    rw [hi.2, Bool.or_true]
  · obtain ⟨u, hu, hu0⟩ := Matrix.exists_mulVec_eq_zero_iff.2 h0
    rw [Matrix.sub_mulVec, Matrix.one_mulVec, ← Matrix.mulVec_mulVec, sub_eq_zero] at hu0
    have hsp := plant_splits p env hx
    have hmc : ∀ k, (p.src ((p.mcOrder env).get k) || p.det ((p.mcOrder env).get k)) = true := by
      intro k
      have h1 := (mem_mcOrder p env _).1 (List.get_mem (p.mcOrder env) k)
      rw [mcAt_iff, steps_freq p env hf] at h1
      unfold Plant.marked at h1
      rw [hact, Bool.or_false] at h1
      simpa using h1
    set b := hsp.join 0 (pick (cx (p.rS w) (p.iS w)) (p.mlPorts env) (p.mlPorts env) *ᵥ u) with hb
    have b1 : b ∘ (p.mcOrder env).get = 0 := funext fun k => hsp.join_mc _ _ k
    have b2 : b ∘ (p.mlPorts env).get = pick (cx (p.rS w) (p.iS w)) (p.mlPorts env) (p.mlPorts env) *ᵥ u :=
      funext fun k => hsp.join_ml _ _ k
    have a2 : (cx p.C 0 *ᵥ b) ∘ (p.mlPorts env).get = u := by
      rw [hsp.mulVec, b1, b2, Matrix.mulVec_zero, zero_add]
      exact hu0.symm
    have hSb : cx (p.rS w) (p.iS w) *ᵥ (cx p.C 0 *ᵥ b) = b := by
      apply hsp.ext
      · intro k
        have : b ((p.mcOrder env).get k) = 0 := congrFun b1 k
        rw [this]
        simp only [Matrix.mulVec, dotProduct]
        exact Finset.sum_eq_zero fun j _ => by rw [(hterm w _ (hmc k) j).1, zero_mul]
      · intro k
        have h1 := congrFun (hsp.mulVec (cx (p.rS w) (p.iS w)) (cx p.C 0 *ᵥ b) (p.mlPorts env)) k
        have h2 : pick (cx (p.rS w) (p.iS w)) (p.mlPorts env) (p.mcOrder env) = 0 := by
          ext i j
          exact (hterm w _ (hmc j) _).2
        rw [h2, Matrix.zero_mulVec, zero_add, a2] at h1
        exact h1.trans (congrFun b2 k).symm
    have := hnull w (cx p.C 0 *ᵥ b) (by rw [hSb])
    apply hu
    rw [← a2, this]
    rfl

/-- Common part of C82, C83 and C142. -/
theorem circuit_settles_of (d : Dev) (hM' : MadeOf (fun _ => True) d)
    (ht : d.comp.terminated = true) (v : ℝ) (wl wl' : W → ℝ) (dt : ℝ) (hpos : 0 < dt)
    (hd : portsWith (d.plant v wl).det ≠ [])
    (hdamp : ∀ w, Damped (cx (d.plant v wl).C 0) (cx ((d.plant v wl).rS w) ((d.plant v wl).iS w)) (circuitDelay d v wl dt))
    (hst : ∀ w, (∀ a, a = (cx (d.plant v wl).C 0 * cx ((d.plant v wl).rS w) ((d.plant v wl).iS w)) *ᵥ
        (fun k => if circuitDelay d v wl dt k = 0 then a k else 0) → a = 0) →
      Stable (cx (d.plant v wl).C 0) (cx ((d.plant v wl).rS w) ((d.plant v wl).iS w)) (circuitDelay d v wl dt))
    (z : W → ℂ) (hz : ∀ w, ‖z w‖ = 1)
    (hS : ∀ w i j, cx ((d.plant v wl').rS w) ((d.plant v wl').iS w) i j =
      cx ((d.plant v wl).rS w) ((d.plant v wl).iS w) i j * (z w ^ circuitDelay d v wl dt j)⁻¹)
    (fenv : SimEnv) (hf : fenv.freqdomain = true) (ht1 : fenv.t.length = 1) (cs' : List (Actor W B)) (amp : ℕ → W → B → ℝ × ℝ) :
    ∃ r' o, initNet (d.plant v wl') fenv = .ok (some r') ∧ forwardReduced r' fenv cs' (fun _ => amp) = .ok [o] ∧ ∀ w b ε, 0 < ε →
      ∃ N, ∀ (ts : List ℝ) (r : Reduced W) (cs : List (Actor W B)), initNet (d.plant v wl) ⟨some dt, false, ts⟩ = .ok (some r) →
        ∃ out, forwardReduced r ⟨some dt, false, ts⟩ cs (modulated z amp) = .ok out ∧ out.length = ts.length ∧
          ∀ t (h : t < out.length), N ≤ t → CloseUpTo ε (z w ^ t) (out[t] w b) (o w b) := by
  obtain ⟨hc, L, hP, hL⟩ := madeOf_flat hM'
  obtain ⟨r', hr'⟩ := freq_initialized (d.plant v wl') fenv hf (plant_terminated hc ht v wl') (plant_exclusive hL v wl')
    (plant_act hL v wl') hd (plant_term hL v wl') fun w a ha => by
      refine hdamp w (z w) (hz w) a ?_
      refine ha.trans (congrArg (cx (d.plant v wl).C 0 *ᵥ ·) ?_)
      funext i
      simp only [Matrix.mulVec, dotProduct]
      exact Finset.sum_congr rfl fun j _ => by rw [hS w i j, mul_assoc]
  obtain ⟨o, ho, hso⟩ := C66_freq_domain d hM' v wl' fenv hf ht1 hd r' hr' cs' (fun _ => amp)
  refine ⟨r', o, hr', ho, fun w b ε hε => ?_⟩
  obtain ⟨⟨a₀, b₀, h₀⟩, hu₀⟩ := hso w b
  have hov := hu₀ a₀ b₀ h₀
  by_cases hex : ∃ (ts : List ℝ) (r : Reduced W), initNet (d.plant v wl) ⟨some dt, false, ts⟩ = .ok (some r)
  · obtain ⟨ts₁, r₁, hr₁⟩ := hex
    have h0 := no_instant (d.plant v wl) ⟨some dt, false, ts₁⟩ dt rfl rfl (plant_exclusive hL v wl) (plant_act hL v wl)
      (circuitDelay d v wl dt) (fun _ => rfl) (circuit_mix hL v wl dt) r₁ hr₁ w
    obtain ⟨N, hN⟩ := settle_stable (d.plant v wl).C (cx ((d.plant v wl).rS w) ((d.plant v wl).iS w))
      (cx ((d.plant v wl').rS w) ((d.plant v wl').iS w)) (circuitDelay d v wl dt) h0 (hst w h0)
      (z w) (hz w) (hS w) _ a₀ b₀ h₀ ε hε
    refine ⟨N, fun ts r cs hr => ?_⟩
    obtain ⟨out, hout, hlen, hsol⟩ := C66_time_domain d hM' v wl ⟨some dt, false, ts⟩ dt rfl hpos rfl hd r hr cs
      (modulated z amp)
    refine ⟨out, hout, hlen, fun t h hNt => ?_⟩
    obtain ⟨⟨a, b', hab⟩, hu⟩ := hsol w b
    have hv := hu a b' hab t h
    have hab' : Solves (cx (d.plant v wl).C 0) (cx ((d.plant v wl).rS w) ((d.plant v wl).iS w))
        (circuitDelay d v wl dt) ts.length
        (fun t => z w ^ t • emitted (d.plant v wl).src fun k => ⟨(amp k w b).1, (amp k w b).2⟩) a b' := by
      refine solves_congr (fun t _ => ?_) hab
      funext i
      simp only [emitted, Pi.smul_apply, smul_eq_mul]
      by_cases hi : (d.plant v wl).src i = true
      · rw [if_pos hi, if_pos hi]
        apply Complex.ext <;> rfl
      · rw [if_neg hi, if_neg hi, mul_zero]
    have hclose := hN ts.length a b' hab' t hNt (by rw [← hlen]; exact h)
    rw [hv, hov]
    have hdet : (d.plant v wl').det = (d.plant v wl).det := rfl
    rw [hdet]
    refine ⟨by simp, fun q y y' hy hy' => ?_⟩
    rw [List.getElem?_map, Option.map_eq_some_iff] at hy hy'
    obtain ⟨i, hi, rfl⟩ := hy
    obtain ⟨i', hi', rfl⟩ := hy'
    rw [hi] at hi'
    cases hi'
    exact hclose i
  · refine ⟨0, fun ts r cs hr => absurd ⟨ts, r, hr⟩ hex⟩

/-- Common part of C82 and C83. -/
theorem circuit_settles (d : Dev) (hM : MadeOf (fun p => ∀ wl, Contracts (scattering p wl)) d)
    (ht : d.comp.terminated = true) (v : ℝ) (wl wl' : W → ℝ) (dt : ℝ) (hpos : 0 < dt)
    (hd : portsWith (d.plant v wl).det ≠ [])
    (hdamp : ∀ w, Damped (cx (d.plant v wl).C 0) (cx ((d.plant v wl).rS w) ((d.plant v wl).iS w)) (circuitDelay d v wl dt))
    (z : W → ℂ) (hz : ∀ w, ‖z w‖ = 1)
    (hS : ∀ w i j, cx ((d.plant v wl').rS w) ((d.plant v wl').iS w) i j =
      cx ((d.plant v wl).rS w) ((d.plant v wl).iS w) i j * (z w ^ circuitDelay d v wl dt j)⁻¹)
    (fenv : SimEnv) (hf : fenv.freqdomain = true) (ht1 : fenv.t.length = 1) (cs' : List (Actor W B)) (amp : ℕ → W → B → ℝ × ℝ) :
    ∃ r' o, initNet (d.plant v wl') fenv = .ok (some r') ∧ forwardReduced r' fenv cs' (fun _ => amp) = .ok [o] ∧ ∀ w b ε, 0 < ε →
      ∃ N, ∀ (ts : List ℝ) (r : Reduced W) (cs : List (Actor W B)), initNet (d.plant v wl) ⟨some dt, false, ts⟩ = .ok (some r) →
        ∃ out, forwardReduced r ⟨some dt, false, ts⟩ cs (modulated z amp) = .ok out ∧ out.length = ts.length ∧
          ∀ t (h : t < out.length), N ≤ t → CloseUpTo ε (z w ^ t) (out[t] w b) (o w b) := by
  obtain ⟨hc, L, hP, hL⟩ := madeOf_flat hM
  exact circuit_settles_of d (hM.mono fun _ _ => trivial) ht v wl wl' dt hpos hd hdamp (fun w h0 ζ hζ a ha =>
    damped_outside (plant_paired hc ht v wl) _ (plant_contracts hL v wl hP w) _ h0 (hdamp w) ζ hζ a
      (by rw [← Matrix.mulVec_mulVec]; exact ha)) z hz hS fenv hf ht1 cs' amp

/-! ## C82 -/

/-- C82: a circuit of components that do not amplify and in which no light circulates for ever settles: driven with a constant
source, the simulation in the time domain approaches the result of the frequency domain. -/
theorem C82_settles (d : Dev) (hM : MadeOf (fun p => ∀ wl, Contracts (scattering p wl)) d)
    (ht : d.comp.terminated = true) (v : ℝ) (wl : W → ℝ) (dt : ℝ) (hpos : 0 < dt)
    (hd : portsWith (d.plant v wl).det ≠ [])
    (hdamp : ∀ w, Damped (cx (d.plant v wl).C 0) (cx ((d.plant v wl).rS w) ((d.plant v wl).iS w)) (circuitDelay d v wl dt))
    (fenv : SimEnv) (hf : fenv.freqdomain = true) (ht1 : fenv.t.length = 1) (cs' : List (Actor W B)) (amp : ℕ → W → B → ℝ × ℝ) :
    ∃ r' o, initNet (d.plant v wl) fenv = .ok (some r') ∧ forwardReduced r' fenv cs' (fun _ => amp) = .ok [o] ∧ ∀ w b ε, 0 < ε →
      ∃ N, ∀ (ts : List ℝ) (r : Reduced W) (cs : List (Actor W B)), initNet (d.plant v wl) ⟨some dt, false, ts⟩ = .ok (some r) →
        ∃ out, forwardReduced r ⟨some dt, false, ts⟩ cs (fun _ => amp) = .ok out ∧ out.length = ts.length ∧
          ∀ t (h : t < out.length), N ≤ t → CloseUpTo ε 1 (out[t] w b) (o w b) := by
  obtain ⟨r', o, hr', ho, h⟩ := circuit_settles d hM ht v wl wl dt hpos hd hdamp (fun _ => 1) (fun _ => by simp)
    (fun w i j => by simp) fenv hf ht1 cs' amp
  refine ⟨r', o, hr', ho, fun w b ε hε => ?_⟩
  obtain ⟨N, hN⟩ := h w b ε hε
  refine ⟨N, fun ts r cs hr => ?_⟩
  obtain ⟨out, h1, h2, h3⟩ := hN ts r cs hr
  have e : (modulated (fun _ => 1) amp : ℕ → ℕ → W → B → ℝ × ℝ) = fun _ => amp := by
    funext t k w b
    unfold modulated
    rw [one_pow, one_mul]
    rfl
  rw [e] at h1
  refine ⟨out, h1, h2, fun t h hN => ?_⟩
  have := h3 t h hN
  rwa [one_pow] at this

/-- Along a feed-forward circuit the light comes to ports of ever higher rank. -/
theorem ff_rank {d : Dev} (hM : MadeOf (fun _ => True) d) {front : ℕ → Bool} {rank : ℕ → ℕ} (hff : FeedForward d front rank)
    (v : ℝ) (wl : W → ℝ) (w : W) (i k : Fin d.comp.n)
    (hM : (cx (d.plant v wl).C 0 * cx ((d.plant v wl).rS w) ((d.plant v wl).iS w)) i k ≠ 0) :
    (if front k = true then rank k else topRank d.comp.n rank - rank k) <
      if front i = true then rank i else topRank d.comp.n rank - rank i := by
  obtain ⟨hc, -⟩ := madeOf_flat ‹MadeOf (fun _ => True) d›
  rw [Matrix.mul_apply] at hM
  obtain ⟨j, -, hj⟩ := Finset.exists_ne_zero_of_sum_ne_zero hM
  have hC := left_ne_zero_of_mul hj
  have hS := right_ne_zero_of_mul hj
  obtain ⟨c1, c2⟩ := ff_connect hff v wl _ _ hC
  have hC' : cx (d.plant v wl).C 0 j i ≠ 0 := by
    have h := plant_C_symm hc v wl
    intro h0
    apply hC
    apply Complex.ext
    · have h1 := congrArg Complex.re h0
      have h2 := congrFun (congrFun h i) j
      rw [Matrix.transpose_apply] at h2
      exact h2.symm.trans h1
    · rfl
  obtain ⟨c3, c4⟩ := ff_connect hff v wl _ _ hC'
  obtain ⟨s1, s2⟩ := ff_scatter hff v wl w _ _ hS
  have t1 := le_topRank (n := d.comp.n) rank i.2
  have t2 := le_topRank (n := d.comp.n) rank k.2
  have t3 := le_topRank (n := d.comp.n) rank j.2
  cases hi : front i <;> cases hj : front j <;> cases hk : front k <;>
    rw [hi, hj] at c1 <;> rw [hj, hk] at s1 <;> simp only [ne_eq, not_true_eq_false] at c1 s1
  · have := c2 hi
    simp only [Bool.false_eq_true, if_false]
    omega
  · have := c4 hj
    simp only [if_true]
    omega

/-- C82: feed-forward circuits are damped. -/
theorem C82_feedforward (d : Dev) (hM : MadeOf (fun p => ∀ wl, Contracts (scattering p wl)) d)
    (ht : d.comp.terminated = true) (front : ℕ → Bool) (rank : ℕ → ℕ) (hff : FeedForward d front rank) (v : ℝ) (wl : W → ℝ)
    (dt : ℝ) (w : W) :
    Damped (cx (d.plant v wl).C 0) (cx ((d.plant v wl).rS w) ((d.plant v wl).iS w)) (circuitDelay d v wl dt) := by
  obtain ⟨hc, L, hP, hL⟩ := madeOf_flat hM
  refine damped_of_rank (plant_paired hc ht v wl) _ (plant_contracts hL v wl hP w) _ (fun _ => False) (fun _ _ _ h => h.elim)
    (fun i => if front i = true then rank i else topRank d.comp.n rank - rank i) ?_
  exact fun i k h => .inr (ff_rank (hM.mono fun _ _ => trivial) hff v wl w i k h)

theorem block_absorbed (wl : ℝ) : ∀ (L : List Part), (∀ p ∈ L, Contracts (scattering p wl)) → ∀ u : ℕ → ℂ,
    blockPower wl L u ≤ ∑ i ∈ Finset.range (partsN L), Complex.normSq (u i) ∧
    (blockPower wl L u = ∑ i ∈ Finset.range (partsN L), Complex.normSq (u i) →
      ∀ i k p i', partAt L i = some (k, p, i') → Absorbs p → u i = 0) := by
  intro L
  induction L with
  | nil => intro _ u; exact ⟨by simp [blockPower, partsN], fun _ i k p i' h => by simp [partAt] at h⟩
  | cons p L ih =>
    intro hL u
    have hn : partsN (p :: L) = p.n + partsN L := by simp [partsN]
    rw [hn, Finset.sum_range_add]
    unfold blockPower
    have h1 := hL p (by simp) fun i : Fin p.n => u i
    have e1 : power (fun i : Fin p.n => u i) = ∑ i ∈ Finset.range p.n, Complex.normSq (u i) := by
      unfold power
      rw [← Fin.sum_univ_eq_sum_range (fun i => Complex.normSq (u i))]
    rw [← e1]
    obtain ⟨h2, h3⟩ := ih (fun q hq => hL q (by simp [hq])) fun i => u (p.n + i)
    refine ⟨add_le_add h1 h2, fun heq i k q i' hi hq => ?_⟩
    unfold partAt at hi
    by_cases hlt : i < p.n
    · rw [if_pos hlt] at hi
      cases hi
      exact congrFun (hq wl (fun i : Fin p.n => u i) (by linarith)) ⟨i, hlt⟩
    · rw [if_neg hlt, Option.map_eq_some_iff] at hi
      obtain ⟨⟨k', q', j⟩, hj, e⟩ := hi
      cases e
      have := h3 (by linarith) (i - p.n) k' q i' hj hq
      rwa [show p.n + (i - p.n) = i by omega] at this

/-- C82: circuits of components that do not amplify are damped, if all components with a delay absorb (such as waveguides with
loss); it suffices that they can be initialized. -/
theorem C82_lossy (d : Dev) (v : ℝ)
    (hM : MadeOf (fun p => (∀ wl, Contracts (scattering p wl)) ∧ (p.delay v ≠ 0 → Absorbs p)) d)
    (ht : d.comp.terminated = true) (wl : W → ℝ) (dt : ℝ) (ts : List ℝ) (r : Reduced W)
    (hr : initNet (d.plant v wl) ⟨some dt, false, ts⟩ = .ok (some r)) (w : W) :
    Damped (cx (d.plant v wl).C 0) (cx ((d.plant v wl).rS w) ((d.plant v wl).iS w)) (circuitDelay d v wl dt) := by
  obtain ⟨hc, L, hP, hL⟩ := madeOf_flat hM
  have h0 := no_instant (d.plant v wl) ⟨some dt, false, ts⟩ dt rfl rfl (plant_exclusive hL v wl) (plant_act hL v wl)
    (circuitDelay d v wl dt) (fun _ => rfl) (circuit_mix hL v wl dt) r hr w
  intro z hz a ha
  set u : Fin d.comp.n → ℂ := fun k => (z ^ circuitDelay d v wl dt k)⁻¹ * a k with hu
  have hpu : power u = power a := by
    unfold power
    refine Finset.sum_congr rfl fun k _ => ?_
    rw [hu, Complex.normSq_mul, Complex.normSq_inv, map_pow, Complex.normSq_eq_norm_sq z, hz]
    simp
  have hcon := plant_contracts hL v wl (fun p hp => (hP p hp).1) w
  have heq : power (cx ((d.plant v wl).rS w) ((d.plant v wl).iS w) *ᵥ u) = power u := by
    refine le_antisymm (hcon u) ?_
    rw [hpu]
    conv_lhs => rw [ha]
    rw [power_paired (plant_paired hc ht v wl)]
  have heq' := heq
  rw [plant_power hL] at heq'
  have hdark := (block_absorbed (wl w) L (fun p hp => (hP p hp).1 _) _).2 (heq'.trans (sum_extend hL _ u).symm)
  refine h0 a ?_
  rw [← Matrix.mulVec_mulVec]
  conv_lhs => rw [ha]
  congr 2
  funext k
  by_cases hk : circuitDelay d v wl dt k = 0
  · rw [if_pos hk, hu]
    simp only [hk, pow_zero, inv_one, one_mul]
  · rw [if_neg hk]
    obtain ⟨l, p, i', hi, hmem, hi', hdel, hs, hdt, -⟩ := plant_port hL v wl k
    have habs : Absorbs p := by
      by_cases hz : p.delay v = 0
      · have hmark : ((d.plant v wl).src k || (d.plant v wl).det k) = true := by
          by_contra hc
          apply hk
          unfold circuitDelay portDelay
          rw [if_neg hc, hdel, hz]
          simp [roundSteps]
          norm_num
        have h0 : ∀ a b, ∀ wl, scattering p wl a b = 0 := by
          rw [hs, hdt, Bool.or_eq_true] at hmark
          rcases hmark with h | h
          · rw [part_src p i' h]; intro a b wl; rfl
          · rw [part_det p i' h]; intro a b wl; rfl
        intro wl u hu
        have : scattering p wl *ᵥ u = 0 := by
          funext i
          simp only [Matrix.mulVec, dotProduct, h0, zero_mul, Finset.sum_const_zero, Pi.zero_apply]
        rw [this] at hu
        have hz : power (0 : Fin p.n → ℂ) = 0 := by simp [power]
        rw [hz] at hu
        funext i
        have := (Finset.sum_eq_zero_iff_of_nonneg fun i _ => Complex.normSq_nonneg (u i)).1 hu.symm i (Finset.mem_univ i)
        exact Complex.normSq_eq_zero.1 this
      · exact (hP p hmem).2 hz
    have := hdark k l p i' hi habs
    simpa using this

/-- Waveguides with loss absorb. -/
theorem waveguide_absorbs (l loss neff wl0 ng φ : ℝ) (h : 0 < loss * l) : Absorbs (.waveguide l loss neff wl0 ng φ) := by
  intro wl u hu
  rw [C44_waveguide_partial] at hu
  have h1 := remaining_lt loss l h
  have h2 : power u = 0 := by
    have : 0 ≤ power u := Finset.sum_nonneg fun i _ => Complex.normSq_nonneg _
    nlinarith
  funext i
  have := (Finset.sum_eq_zero_iff_of_nonneg fun i _ => Complex.normSq_nonneg (u i)).1 h2 i (Finset.mem_univ i)
  exact Complex.normSq_eq_zero.1 this

/-! ## C83 -/

theorem roundSteps_nat (n : ℕ) : roundSteps n = n := by
  unfold roundSteps
  have : ⌊(n : ℝ) + 1 / 2⌋ = n := by
    rw [Int.floor_eq_iff]
    constructor <;> push_cast <;> linarith
  rw [this]
  simp

/-- Light of another wavelength is scattered as light that has the frequency difference to it. -/
theorem shifted_scattering (d : Dev) (v : ℝ) (hv : v ≠ 0) (dt : ℝ) (hpos : 0 < dt)
    (hM : MadeOf (fun p => (∀ wl, Contracts (scattering p wl)) ∧ Dispersive p ∧ ∃ n : ℕ, p.delay v = n * dt) d)
    (wl wl' : W → ℝ) (hwl : ∀ w, wl w ≠ 0 ∧ wl' w ≠ 0) : ∀ w i j, cx ((d.plant v wl').rS w) ((d.plant v wl').iS w) i j =
      cx ((d.plant v wl).rS w) ((d.plant v wl).iS w) i j * (detuning v (wl w) (wl' w) dt ^ circuitDelay d v wl dt j)⁻¹ := by
  obtain ⟨-, L, hP, hL⟩ := madeOf_flat hM
  intro w i j
  obtain ⟨k, p, i', hi, hmem, hi', hdel, -, -, -⟩ := plant_port hL v wl i
  obtain ⟨k', q, j', hj, -, hj', hdelj, -, -, -⟩ := plant_port hL v wl j
  obtain ⟨h1, h2⟩ := cxBlock_partAt L (wl w) hi hj
  obtain ⟨h3, h4⟩ := cxBlock_partAt L (wl' w) hi hj
  have hzero : cx ((d.plant v wl).rS w) ((d.plant v wl).iS w) i j = 0 →
      cx ((d.plant v wl').rS w) ((d.plant v wl').iS w) i j = 0 := by
    rw [plant_S hL, plant_S hL]
    intro h
    by_cases hk : k = k'
    · obtain ⟨_, _, -, e⟩ := h2 hk
      obtain ⟨_, _, -, e'⟩ := h4 hk
      rw [e', (hP p hmem).2.1 v (wl' w) (wl w) hv (hwl w).2 (hwl w).1, Matrix.smul_apply, ← e, h, smul_zero]
    · exact h3 hk
  by_cases h0 : cx ((d.plant v wl).rS w) ((d.plant v wl).iS w) i j = 0
  · rw [h0, hzero h0, zero_mul]
  obtain ⟨-, -, s2, -, d2⟩ := plant_same hL v wl w i j h0
  rw [plant_S hL] at h0
  have hk : k = k' := by
    by_contra hk
    exact h0 (h1 hk)
  obtain ⟨_, _, rfl, e⟩ := h2 hk
  obtain ⟨_, _, -, e'⟩ := h4 hk
  obtain ⟨n, hn⟩ := (hP q hmem).2.2
  have hcd : circuitDelay d v wl dt j = n := by
    unfold circuitDelay portDelay
    rw [s2, d2, Bool.or_false, if_neg (by simp), hdelj, hn, mul_div_cancel_right₀ _ hpos.ne', roundSteps_nat]
  rw [hcd, plant_S hL, plant_S hL, e, e', (hP q hmem).2.1 v (wl' w) (wl w) hv (hwl w).2 (hwl w).1, Matrix.smul_apply,
    smul_eq_mul, mul_comm]
  congr 1
  unfold detuning
  rw [← Complex.exp_nat_mul, ← Complex.exp_neg, hn]
  congr 1
  push_cast
  ring

/-- C83: in a circuit of passive components whose dispersion is that of their delay, the delays being multiples of the time step,
a source that is modulated with the difference frequency of two wavelengths is, after settling, transmitted like light of the
other wavelength. -/
theorem C83_modulated (d : Dev) (v : ℝ) (hv : v ≠ 0) (dt : ℝ) (hpos : 0 < dt)
    (hM : MadeOf (fun p => (∀ wl, Contracts (scattering p wl)) ∧ Dispersive p ∧ ∃ n : ℕ, p.delay v = n * dt) d)
    (ht : d.comp.terminated = true) (wl wl' : W → ℝ) (hwl : ∀ w, wl w ≠ 0 ∧ wl' w ≠ 0)
    (hd : portsWith (d.plant v wl).det ≠ [])
    (hdamp : ∀ w, Damped (cx (d.plant v wl).C 0) (cx ((d.plant v wl).rS w) ((d.plant v wl).iS w)) (circuitDelay d v wl dt))
    (fenv : SimEnv) (hf : fenv.freqdomain = true) (ht1 : fenv.t.length = 1) (cs' : List (Actor W B)) (amp : ℕ → W → B → ℝ × ℝ) :
    ∃ r' o, initNet (d.plant v wl') fenv = .ok (some r') ∧ forwardReduced r' fenv cs' (fun _ => amp) = .ok [o] ∧ ∀ w b ε, 0 < ε →
      ∃ N, ∀ (ts : List ℝ) (r : Reduced W) (cs : List (Actor W B)), initNet (d.plant v wl) ⟨some dt, false, ts⟩ = .ok (some r) →
        ∃ out, forwardReduced r ⟨some dt, false, ts⟩ cs (modulated (fun w => detuning v (wl w) (wl' w) dt) amp) = .ok out ∧
          out.length = ts.length ∧
          ∀ t (h : t < out.length), N ≤ t → CloseUpTo ε (detuning v (wl w) (wl' w) dt ^ t) (out[t] w b) (o w b) := by
  refine circuit_settles d (hM.mono fun _ h => h.1) ht v wl wl' dt hpos hd hdamp _
    (fun w => Complex.norm_exp_ofReal_mul_I _) (shifted_scattering d v hv dt hpos hM wl wl' hwl) fenv hf ht1 cs' amp

/-! ## A ring resonator with loss -/

theorem dispersive_constant (p : Part) (h : ∀ wl wl', scattering p wl = scattering p wl') (hd : ∀ c, p.delay c = 0) :
    Dispersive p := by
  intro c wl₁ wl₂ _ _ _
  rw [hd, mul_zero, h wl₁ wl₂]
  simp

/-- A ring of 100 µm with 3 dB/cm and group index 3, coupled to a waveguide. -/
noncomputable def exRingWg : Part := .waveguide 1e-4 300 2.34 1.55e-6 3 0
noncomputable def exRingDevs : List (Str × Dev) :=
  [(['s'], Part.source.dev), (['c'], (Part.coupler 0.3).dev), (['w'], exRingWg.dev), (['d'], Part.detector.dev)]
def exRingComps : Comps := [(['s'], source), (['c'], passive 4), (['w'], passive 2), (['d'], detector)]
def exRingCs : List Conn := [.inner ['s'] 0 ['c'] 0, .inner ['c'] 1 ['d'] 0, .inner ['c'] 2 ['w'] 0, .inner ['w'] 1 ['c'] 3]

theorem exRing_net : ∃ c, mkNet none exRingComps (exRingCs.map Conn.text) = .ok c ∧ c.n = 8 ∧
    c.src.getD 0 false = true ∧ c.det.getD 5 false = true ∧ c.terminated = true ∧
    ∀ i j, c.C i j ≠ 0 → i = 0 ∨ j = 0 ∨ i = 5 ∨ j = 5 ∨ i = 6 ∨ j = 6 ∨ i = 7 ∨ j = 7 := by
  have hk : okAnd (mkNet none exRingComps (exRingCs.map Conn.text)) (fun c =>
      decide (c.n = 8) && c.src.getD 0 false && c.det.getD 5 false && c.terminated &&
        (List.range 8).all fun i => (List.range 8).all fun j =>
          decide (c.C i j ≠ 0 → i = 0 ∨ j = 0 ∨ i = 5 ∨ j = 5 ∨ i = 6 ∨ j = 6 ∨ i = 7 ∨ j = 7)) = true := by
    decide +kernel
  obtain ⟨c, hc, hk⟩ := okAnd_iff.mp hk
  simp only [Bool.and_eq_true, decide_eq_true_eq, List.all_eq_true, List.mem_range] at hk
  obtain ⟨⟨⟨⟨k1, k2⟩, k3⟩, k4⟩, k5⟩ := hk
  have r := built_reciprocal (Built.net none _ _ c (by
    intro p hp
    simp only [exRingComps, List.mem_cons, List.not_mem_nil, or_false] at hp
    rcases hp with rfl | rfl | rfl | rfl
    · exact leaf_onePort.2.1.1
    · exact (passive_clean 4 (by omega)).built
    · exact (passive_clean 2 (by omega)).built
    · exact leaf_onePort.2.2.1) hc)
  rw [k1] at r
  refine ⟨c, hc, k1, k2, k3, k4, fun i j h => ?_⟩
  obtain ⟨h1, h2⟩ := r.2.2 i j h
  exact k5 i h1 j h2 h

theorem exRing_dev : ∃ d, mkDev none exRingDevs (exRingCs.map Conn.text) = .ok d ∧ d.comp.n = 8 ∧
    d.comp.src.getD 0 false = true ∧ d.comp.det.getD 5 false = true ∧ d.comp.terminated = true ∧
    (∀ i j, d.comp.C i j ≠ 0 → i = 0 ∨ j = 0 ∨ i = 5 ∨ j = 5 ∨ i = 6 ∨ j = 6 ∨ i = 7 ∨ j = 7) ∧
    d.delay 3e8 6 = 1e-12 ∧ d.delay 3e8 7 = 1e-12 := by
  obtain ⟨c, hc, h⟩ := exRing_net
  have hu : usedDevs exRingDevs (usedNames ((exRingCs.map Conn.text).map stripConn)) =
      [(['s'], Part.source.dev), (['c'], (Part.coupler 0.3).dev), (['d'], Part.detector.dev), (['w'], exRingWg.dev)] := by
    have h : usedNames ((exRingCs.map Conn.text).map stripConn) = [['s'], ['c'], ['d'], ['w']] := by decide +kernel
    rw [h]
    rfl
  refine ⟨netDev c [(['s'], Part.source.dev), (['c'], (Part.coupler 0.3).dev), (['d'], Part.detector.dev), (['w'], exRingWg.dev)],
    ?_, h.1, h.2.1, h.2.2.1, h.2.2.2.1, h.2.2.2.2, ?_, ?_⟩
  · unfold mkDev
    rw [hu]
    exact congrArg (Except.map fun c => netDev c _) hc
  all_goals
    simp [netDev, blockVec, Part.dev, Part.comp, source, detector, passive, leaf, exRingWg, Part.delay, lengthDelay]
    norm_num

theorem exRing_made (P : Part → Prop) (h1 : P .source) (h2 : P .detector) (h3 : P (.coupler 0.3)) (h4 : P exRingWg) (d : Dev)
    (hd : mkDev none exRingDevs (exRingCs.map Conn.text) = .ok d) : MadeOf P d := by
  refine .net none exRingDevs exRingCs d ?_ (goodConns_dec (by decide +kernel)) ⟨by decide, by decide⟩ ⟨by decide, by decide, by decide⟩ hd
  intro p hp
  simp only [exRingDevs, List.mem_cons, List.not_mem_nil, or_false] at hp
  rcases hp with rfl | rfl | rfl | rfl
  · exact .part _ h1 (by show 0 < 1; omega)
  · exact .part _ h3 (by show 0 < 4; omega)
  · exact .part _ h4 (by show 0 < 2; omega)
  · exact .part _ h2 (by show 0 < 1; omega)

theorem exRing_init (d : Dev) (hc : Clean d.comp) (ht : d.comp.terminated = true) (hn : d.comp.n = 8)
    (h0 : d.comp.src.getD 0 false = true) (h5 : d.comp.det.getD 5 false = true)
    (hC : ∀ i j, d.comp.C i j ≠ 0 → i = 0 ∨ j = 0 ∨ i = 5 ∨ j = 5 ∨ i = 6 ∨ j = 6 ∨ i = 7 ∨ j = 7)
    (h6 : d.delay 3e8 6 = 1e-12) (h7 : d.delay 3e8 7 = 1e-12) (wl : W → ℝ) (ts : List ℝ) :
    ∃ r, initNet (d.plant 3e8 wl) ⟨some 1e-13, false, ts⟩ = .ok (some r) := by
  have hmc : ∀ i : Fin d.comp.n, i.val = 0 ∨ i.val = 5 ∨ i.val = 6 ∨ i.val = 7 →
      (d.plant 3e8 wl).mcAt ⟨some 1e-13, false, ts⟩ i = true := by
    intro i hi
    have hdel : ∀ i : Fin d.comp.n, d.delay 3e8 i = 1e-12 → (d.plant 3e8 wl).mcAt ⟨some 1e-13, false, ts⟩ i = true := by
      intro i hi
      rw [mcAt_iff]
      right
      rw [steps_toNat _ _ 1e-13 rfl, seconds_time _ _ rfl]
      have : (d.plant 3e8 wl).delay i = 1e-12 := hi
      rw [this, show (1e-12 / 1e-13 : ℝ) = ((10 : ℕ) : ℝ) by norm_num, roundSteps_nat]
      norm_num
    rcases hi with hi | hi | hi | hi
    · refine mcAt_of_marked (d.plant 3e8 wl) _ i ?_
      have : (d.plant 3e8 wl).src i = true := by show d.comp.src.getD i.val false = true; rw [hi]; exact h0
      rw [this]; rfl
    · refine mcAt_of_marked (d.plant 3e8 wl) _ i ?_
      have : (d.plant 3e8 wl).det i = true := by show d.comp.det.getD i.val false = true; rw [hi]; exact h5
      rw [this, Bool.or_true]
    · exact hdel i (by rw [hi]; exact h6)
    · exact hdel i (by rw [hi]; exact h7)
  refine C26_initialized _ _ (plant_terminated hc ht _ wl) ⟨⟨0, by show 0 < d.comp.n; omega⟩, hmc _ (.inl rfl)⟩ fun w => ?_
  have hz : pick (cx (d.plant 3e8 wl).C 0) ((d.plant 3e8 wl).mlPorts ⟨some 1e-13, false, ts⟩)
      ((d.plant 3e8 wl).mlPorts ⟨some 1e-13, false, ts⟩) = 0 := by
    ext1 k l
    have hk := (mem_mlPorts _ _ _).1 (List.get_mem ((d.plant 3e8 wl).mlPorts ⟨some 1e-13, false, ts⟩) k)
    have hl := (mem_mlPorts _ _ _).1 (List.get_mem ((d.plant 3e8 wl).mlPorts ⟨some 1e-13, false, ts⟩) l)
    show cx (d.plant 3e8 wl).C 0 _ _ = 0
    by_contra h
    have h' : d.comp.C (((d.plant 3e8 wl).mlPorts ⟨some 1e-13, false, ts⟩).get k).val
        (((d.plant 3e8 wl).mlPorts ⟨some 1e-13, false, ts⟩).get l).val ≠ 0 := by
      intro h0
      apply h
      apply Complex.ext
      · show ((d.comp.C _ _ : ℚ) : ℝ) = 0
        rw [h0]; norm_num
      · rfl
    have := hC _ _ h'
    have hk' := mt (hmc _) (by rw [hk]; simp)
    have hl' := mt (hmc _) (by rw [hl]; simp)
    omega
  rw [hz, Matrix.zero_mul, sub_zero, Matrix.det_one]
  norm_num

/-- C82 and C83 for the ring: whatever the carrier wavelength is and whatever the source is modulated with, the ring settles and
transmits as at the shifted wavelength. -/
example (wl wl' : W → ℝ) (hwl : ∀ w, wl w ≠ 0 ∧ wl' w ≠ 0) (amp : ℕ → W → B → ℝ × ℝ) :
    ∃ (d : Dev) (r' : Reduced W) (o : W → B → List (ℝ × ℝ)), initNet (d.plant 3e8 wl') ⟨none, true, [0]⟩ = .ok (some r') ∧
      forwardReduced r' ⟨none, true, [0]⟩ [] (fun _ => amp) = .ok [o] ∧ ∀ w b ε, 0 < ε → ∃ N, ∀ ts, ∃ r out,
        initNet (d.plant 3e8 wl) ⟨some 1e-13, false, ts⟩ = .ok (some r) ∧
        forwardReduced r ⟨some 1e-13, false, ts⟩ [] (modulated (fun w => detuning 3e8 (wl w) (wl' w) 1e-13) amp) = .ok out ∧
        ∀ t (h : t < out.length), N ≤ t → CloseUpTo ε (detuning 3e8 (wl w) (wl' w) 1e-13 ^ t) (out[t] w b) (o w b) := by
  obtain ⟨d, hd, hn, h0, h5, ht, hC, h6, h7⟩ := exRing_dev
  have c1 : ∀ wl, Contracts (scattering .source wl) := C65_contracts_partial .source trivial (by simp)
  have c2 : ∀ wl, Contracts (scattering .detector wl) := C65_contracts_partial .detector trivial (by simp)
  have c3 : ∀ wl, Contracts (scattering (.coupler 0.3) wl) := C65_contracts_partial _ (by constructor <;> norm_num) (by simp)
  have c4 : ∀ wl, Contracts (scattering exRingWg wl) := C65_contracts_partial exRingWg (by constructor <;> norm_num) (by simp [exRingWg])
  have hM := exRing_made (fun p => (∀ wl, Contracts (scattering p wl)) ∧ (p.delay 3e8 ≠ 0 → Absorbs p))
    ⟨c1, fun h => absurd rfl h⟩ ⟨c2, fun h => absurd rfl h⟩ ⟨c3, fun h => absurd rfl h⟩
    ⟨c4, fun _ => waveguide_absorbs _ _ _ _ _ _ (by norm_num)⟩ d hd
  have hinit := exRing_init d (madeOf_flat hM).1 ht hn h0 h5 hC h6 h7 wl
  have hM2 := exRing_made (fun p => (∀ wl, Contracts (scattering p wl)) ∧ Dispersive p ∧ ∃ n : ℕ, p.delay 3e8 = n * 1e-13)
    ⟨c1, dispersive_constant _ (fun _ _ => rfl) (fun _ => rfl), 0, by simp [Part.delay]⟩
    ⟨c2, dispersive_constant _ (fun _ _ => rfl) (fun _ => rfl), 0, by simp [Part.delay]⟩
    ⟨c3, dispersive_constant _ (fun _ _ => rfl) (fun _ => rfl), 0, by simp [Part.delay]⟩
    ⟨c4, C81_waveguide_partial _ _ _ _ _ _ (by norm_num), 10, by
      show lengthDelay 3 1e-4 3e8 = _
      unfold lengthDelay
      norm_num⟩ d hd
  have hdet : portsWith (d.plant 3e8 wl).det ≠ [] := by
    have hm : (⟨5, by rw [hn]; omega⟩ : Fin d.comp.n) ∈ portsWith (d.plant 3e8 wl).det := by
      simp only [portsWith, List.mem_filter, List.mem_finRange, true_and]
      exact h5
    intro h0
    rw [h0] at hm
    cases hm
  obtain ⟨r0, hr0⟩ := hinit []
  obtain ⟨r', o, h1, h2, h3⟩ := C83_modulated (B := B) d 3e8 (by norm_num) 1e-13 (by norm_num) hM2 ht wl wl' hwl hdet
    (fun w => C82_lossy d 3e8 hM ht wl 1e-13 [] r0 hr0 w) ⟨none, true, [0]⟩ rfl rfl [] amp
  refine ⟨d, r', o, h1, h2, fun w b ε hε => ?_⟩
  obtain ⟨N, hN⟩ := h3 w b ε hε
  refine ⟨N, fun ts => ?_⟩
  obtain ⟨r, hr⟩ := hinit ts
  obtain ⟨out, k1, -, k2⟩ := hN ts r [] hr
  exact ⟨r, out, hr, k1, k2⟩

/-- C82 for the line of C66, which is feed-forward. -/
example (v : ℝ) (wl : W → ℝ) (amp : ℕ → W → B → ℝ × ℝ) :
    ∃ (d : Dev) (r' : Reduced W) (o : W → B → List (ℝ × ℝ)), initNet (d.plant v wl) ⟨none, true, [0]⟩ = .ok (some r') ∧
    forwardReduced r' ⟨none, true, [0]⟩ [] (fun _ => amp) = .ok [o] ∧ ∀ w b ε, 0 < ε → ∃ N, ∀ ts, ∃ r out,
      initNet (d.plant v wl) ⟨some 1e-14, false, ts⟩ = .ok (some r) ∧
      forwardReduced r ⟨some 1e-14, false, ts⟩ [] (fun _ => amp) = .ok out ∧
      ∀ t (h : t < out.length), N ≤ t → CloseUpTo ε 1 (out[t] w b) (o w b) := by
  obtain ⟨d, d', hd, -, -, hn, hs, hdt, ht, hff⟩ := exLine_devs
  have hM := exLine_made (fun p => ∀ wl, Contracts (scattering p wl)) .source .detector
    ⟨C65_contracts_partial .source trivial (by simp), rfl⟩ ⟨C65_contracts_partial .detector trivial (by simp), rfl⟩
    (C65_contracts_partial _ (by constructor <;> norm_num) (by simp)) d hd
  obtain ⟨r', o, h1, h2, h3⟩ := C82_settles (B := B) d hM ht v wl 1e-14 (by norm_num) (exLine_det hn hdt v wl)
    (C82_feedforward d hM ht _ _ hff v wl 1e-14) ⟨none, true, [0]⟩ rfl rfl [] amp
  refine ⟨d, r', o, h1, h2, fun w b ε hε => ?_⟩
  obtain ⟨N, hN⟩ := h3 w b ε hε
  refine ⟨N, fun ts => ?_⟩
  obtain ⟨r, hr⟩ := C75_initialized _ d hM ht _ _ hff v wl ⟨some 1e-14, false, ts⟩
    ⟨⟨3, by show 3 < d.comp.n; omega⟩, by simp [Dev.plant, hdt]⟩
  obtain ⟨out, k1, -, k2⟩ := hN ts r [] hr
  exact ⟨r, out, hr, k1, k2⟩

end PT
