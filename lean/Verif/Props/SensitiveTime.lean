import Verif.Props.SensitiveMesh

/-!
# C150: small errors of components lead to small errors of simulations in time
-/

namespace PT
open Matrix Spec

variable {W : Type}

namespace Sens

theorem zip_sum {α β : Type} (f : α → β → ℝ) : ∀ (T : ℕ) (l : List α) (l' : List β) (g : ℕ → ℝ), (∀ t, 0 ≤ g t) →
    (∀ t x y, l[t]? = some x → l'[t]? = some y → f x y ≤ g t) →
    (List.zipWith f (l.take T) (l'.take T)).sum ≤ ∑ t ∈ Finset.range T, g t := by
  intro T
  induction T with
  | zero => intro l l' g _ _; simp
  | succ T ih =>
    intro l l' g hg h
    cases l with
    | nil => simpa using Finset.sum_nonneg fun t _ => hg t
    | cons x l =>
      cases l' with
      | nil => simpa using Finset.sum_nonneg fun t _ => hg t
      | cons y l' =>
        rw [Finset.sum_range_succ', List.take_succ_cons, List.take_succ_cons, List.zipWith_cons_cons, List.sum_cons, add_comm]
        exact add_le_add (ih l l' (fun t => g (t + 1)) (fun t => hg _) fun t x y hx hy => h (t + 1) x y hx hy) (h 0 x y rfl rfl)

theorem part_flat {n : ℕ} (q : Fin n → Prop) [DecidablePred q] (T : ℕ) (u : ℕ → Fin n → ℂ) :
    power (part (fun x : Fin n × Fin T => q x.1) (flat T u)) = energy T fun t => part q (u t) := by
  rw [← power_flat]
  rfl

theorem mix_of {p : Plant W} {S' : W → Matrix (Fin p.n) (Fin p.n) ℂ} (hS' : EndsDark p S') (hK : KeepsDelays p S') (dt : ℝ) (w : W)
    (i j : Fin p.n) (h0 : portDelay dt (p.src i || p.det i) (p.delay i) = 0) (h1 : portDelay dt (p.src j || p.det j) (p.delay j) ≠ 0) :
    S' w i j = 0 ∧ S' w j i = 0 := by
  have key : ∀ k l, S' w k l ≠ 0 →
      portDelay dt (p.src k || p.det k) (p.delay k) = portDelay dt (p.src l || p.det l) (p.delay l) := by
    intro k l hne
    have e1 : (p.src k || p.det k) = false := by
      by_contra h
      exact hne (hS' w k (by rwa [Bool.not_eq_false] at h) l).1
    have e2 : (p.src l || p.det l) = false := by
      by_contra h
      exact hne (hS' w l (by rwa [Bool.not_eq_false] at h) k).2
    rw [e1, e2, hK w k l hne]
  constructor
  · by_contra h
    rw [key _ _ h] at h0
    exact h1 h0
  · by_contra h
    rw [key _ _ h] at h1
    exact h1 h0

/-- A bound for the fields at the detectors bounds the results. -/
theorem runs (d : Dev) (hM : MadeOf (fun _ => True) d) (ht : d.comp.terminated = true) (v : ℝ) (wl : W → ℝ)
    (hd : portsWith (d.plant v wl).det ≠ []) (dt : ℝ) (hdt : 0 < dt) (κ ε : ℝ) (h0 : 0 ≤ κ) (hε0 : 0 ≤ ε) (hs : κ * ε < 1)
    (hκ : ∀ w, EnhancesOverTime κ (cx (d.plant v wl).C 0) (cx ((d.plant v wl).rS w) ((d.plant v wl).iS w)) (circuitDelay d v wl dt))
    (S' : W → Matrix (Fin d.comp.n) (Fin d.comp.n) ℂ) (hS' : EndsDark (d.plant v wl) S') (hK : KeepsDelays (d.plant v wl) S')
    (hε : ∀ w, DeviatesBy ε (cx ((d.plant v wl).rS w) ((d.plant v wl).iS w)) (S' w)) (Q : ℝ)
    (hQ : ∀ (w : W) (T : ℕ) (c : ℕ → ℕ → ℂ) (a b a' b' : ℕ → Fin d.comp.n → ℂ),
      Solves (cx (d.plant v wl).C 0) (cx ((d.plant v wl).rS w) ((d.plant v wl).iS w)) (circuitDelay d v wl dt) T
        (fun t => emitted (d.plant v wl).src (c t)) a b →
      Solves (cx (d.plant v wl).C 0) (S' w) (circuitDelay d v wl dt) T (fun t => emitted (d.plant v wl).src (c t)) a' b' →
      √(power (part (fun x : Fin d.comp.n × Fin T => (d.plant v wl).det x.1 = true) (flat T a' - flat T a))) ≤
        Q * √(energy T fun t => emitted (d.plant v wl).src (c t))) :
    RunsWithin Q dt (d.plant v wl) (withS (d.plant v wl) S') := by
  intro env hf hdt'
  obtain ⟨hc, L, -, hL⟩ := madeOf_flat hM
  have hact := plant_act hL v wl
  have hT := plant_terminated hc ht v wl
  obtain ⟨i₀, hi₀⟩ := List.exists_mem_of_ne_nil _ hd
  have hi₁ : (d.plant v wl).det i₀ = true := (List.mem_filter.1 hi₀).2
  have hmc : (d.plant v wl).mcAt env i₀ = true := mcAt_of_marked _ env i₀ (by rw [hi₁, Bool.or_true])
  have hmc' : (withS (d.plant v wl) S').mcAt env i₀ = true := mcAt_of_marked _ env i₀ (by
    show ((d.plant v wl).src i₀ || (d.plant v wl).det i₀) = true
    rw [hi₁, Bool.or_true])
  have hdev0 : ∀ w, DeviatesBy 0 (cx ((d.plant v wl).rS w) ((d.plant v wl).iS w)) (cx ((d.plant v wl).rS w) ((d.plant v wl).iS w)) := by
    intro w u
    rw [sub_self, Matrix.zero_mulVec, zero_mul]
    have : power (0 : Fin d.comp.n → ℂ) = 0 := by simp [power]
    exact (congrArg Real.sqrt this).trans Real.sqrt_zero |>.le
  have hmem : ∀ i : Fin d.comp.n, i ∈ (d.plant v wl).mlPorts env ↔ circuitDelay d v wl dt i = 0 := by
    intro i
    rw [mem_mlPorts, ← stepDelay_eq_zero, stepDelay_time _ env dt hdt' hf]
    unfold circuitDelay Plant.marked
    rw [hact i, Bool.or_false]
  have hmem' : ∀ i : Fin d.comp.n, i ∈ (withS (d.plant v wl) S').mlPorts env ↔ circuitDelay d v wl dt i = 0 := by
    exact hmem
  obtain ⟨r, hr⟩ := C26_initialized (d.plant v wl) env hT ⟨i₀, hmc⟩ fun w =>
    undelayed_det (hκ w) (hdev0 w) h0 le_rfl (by rw [mul_zero]; exact one_pos) (circuit_mix hL v wl dt w) _ (ml_nodup _ env) hmem
  obtain ⟨r', hr'⟩ := C26_initialized (withS (d.plant v wl) S') env hT ⟨i₀, hmc'⟩ fun w => by
    rw [withS_cx]
    exact undelayed_det (hκ w) (hε w) h0 hε0 hs (mix_of hS' hK dt w) _ (ml_nodup _ env) hmem'
  refine ⟨r, r', hr, hr', fun B cs src => ?_⟩
  obtain ⟨o, ho, hl, hsol⟩ := C26_time_domain (d.plant v wl) env dt hdt' hdt hf (plant_exclusive hL v wl) hact hd (circuitDelay d v wl dt)
    (fun _ => rfl) (circuit_mix hL v wl dt) r hr cs src
  obtain ⟨o', ho', hl', hsol'⟩ := C26_time_domain (withS (d.plant v wl) S') env dt hdt' hdt hf (plant_exclusive hL v wl) hact hd
    (circuitDelay d v wl dt) (fun _ => rfl) (fun w => by rw [withS_cx]; exact mix_of hS' hK dt w) r' hr' cs src
  refine ⟨o, o', ho, ho', hl, hl', fun w b => ?_⟩
  obtain ⟨⟨a, b₁, h⟩, hall⟩ := hsol w b
  obtain ⟨⟨a', b₁', h'⟩, hall'⟩ := hsol' w b
  have e := hall _ _ h
  have e' := hall' _ _ h'
  rw [withS_cx] at h'
  refine ⟨fun t ht ht' => ?_, fun T hT => ?_⟩
  · rw [e t ht, e' t ht', List.length_map, List.length_map]
    rfl
  · have key := hQ w T (fun t k => asComplex (src t k w b)) a b₁ a' b₁'
      ⟨fun t ht => h.incoming t (by omega), fun t ht => h.outgoing t (by omega)⟩
      ⟨fun t ht => h'.incoming t (by omega), fun t ht => h'.outgoing t (by omega)⟩
    refine le_trans (Real.sqrt_le_sqrt ?_) key
    have e2 : ∀ u u' : ℕ → Fin d.comp.n → ℂ, power (part (fun x : Fin d.comp.n × Fin T => (d.plant v wl).det x.1 = true)
        (flat T u' - flat T u)) = energy T fun t => part (fun i => (d.plant v wl).det i = true) (u' t - u t) := fun u u' =>
      part_flat (fun i => (d.plant v wl).det i = true) T fun t => u' t - u t
    refine le_of_le_of_eq ?_ (e2 a a').symm
    refine zip_sum _ T o o' _ (fun t => power_nonneg _) fun t x y hx hy => ?_
    obtain ⟨hx1, rfl⟩ := List.getElem?_eq_some_iff.1 hx
    obtain ⟨hy1, rfl⟩ := List.getElem?_eq_some_iff.1 hy
    rw [e t hx1, e' t hy1]
    exact mismatch_le (d.plant v wl).det (a' t) (a t)

end Sens

/-- C150. Any circuit in which, over time, light is enhanced by at most `κ`. -/
theorem C150_near (d : Dev) (hM : MadeOf (fun _ => True) d) (ht : d.comp.terminated = true) (v : ℝ) (wl : W → ℝ)
    (hd : portsWith (d.plant v wl).det ≠ []) (dt : ℝ) (hdt : 0 < dt) (κ ε : ℝ) (h0 : 0 ≤ κ) (hε0 : 0 ≤ ε) (hs : κ * ε < 1)
    (hκ : ∀ w, EnhancesOverTime κ (cx (d.plant v wl).C 0) (cx ((d.plant v wl).rS w) ((d.plant v wl).iS w)) (circuitDelay d v wl dt))
    (S' : W → Matrix (Fin d.comp.n) (Fin d.comp.n) ℂ) (hS' : EndsDark (d.plant v wl) S') (hK : KeepsDelays (d.plant v wl) S')
    (hε : ∀ w, DeviatesBy ε (cx ((d.plant v wl).rS w) ((d.plant v wl).iS w)) (S' w)) :
    RunsWithin (κ ^ 2 * ε / (1 - κ * ε)) dt (d.plant v wl) (withS (d.plant v wl) S') := by
  refine Sens.runs d hM ht v wl hd dt hdt κ ε h0 hε0 hs hκ S' hS' hK hε _ fun w T c a b a' b' h h' => ?_
  rw [← Sens.power_flat]
  exact (Real.sqrt_le_sqrt (Sens.power_part_le _ _)).trans (Sens.fields_near (Sens.enhances_copies (hκ w) T)
    (Sens.spread_deviates _ T hε0 (hε w)) h0 hs (Sens.solves_flat.1 h) (Sens.solves_flat.1 h'))

/-- C150. Circuits all of whose components lose light, whether or not light goes round in them: also over time, errors do not
accumulate. -/
theorem C150_absorbing (d : Dev) (ρ : ℝ) (hρ : 0 ≤ ρ) (hM : MadeOf (fun p => ∀ wl u, power (scattering p wl *ᵥ u) ≤ ρ ^ 2 * power u) d)
    (ht : d.comp.terminated = true) (v : ℝ) (wl : W → ℝ) (hd : portsWith (d.plant v wl).det ≠ []) (dt : ℝ) (hdt : 0 < dt) (ε : ℝ)
    (h0 : 0 ≤ ε) (hs : ρ + ε < 1)
    (S' : W → Matrix (Fin d.comp.n) (Fin d.comp.n) ℂ) (hS' : EndsDark (d.plant v wl) S') (hK : KeepsDelays (d.plant v wl) S')
    (hε : ∀ w, DeviatesBy ε (cx ((d.plant v wl).rS w) ((d.plant v wl).iS w)) (S' w)) :
    RunsWithin (ε / ((1 - ρ) * (1 - ρ - ε))) dt (d.plant v wl) (withS (d.plant v wl) S') := by
  obtain ⟨hc, L, hP, hL⟩ := madeOf_flat hM
  have h1 : 0 < 1 - ρ := by linarith
  have h2 : 0 < 1 - ρ - ε := by linarith
  have key := C150_near d (madeOf_any hM) ht v wl hd dt hdt (1 / (1 - ρ)) ε (by positivity) h0
    (by rw [div_mul_eq_mul_div, one_mul, div_lt_one h1]; linarith)
    (fun w => Sens.enhances_of_copies fun T => Sens.enhances_of_absorbing (Sens.copies_paired T (plant_paired hc ht v wl)) _ ρ (by linarith)
      (Sens.spread_amplitude _ T hρ (Sens.plant_absorbs hL v wl ρ hρ hP w))) S' hS' hK hε
  have e : (1 / (1 - ρ)) ^ 2 * ε / (1 - 1 / (1 - ρ) * ε) = ε / ((1 - ρ) * (1 - ρ - ε)) := by
    have : 1 - 1 / (1 - ρ) * ε = (1 - ρ - ε) / (1 - ρ) := by field_simp
    rw [this]
    field_simp
  rwa [e] at key

/-- C150. Circuits in which light travels in one direction, over time. -/
theorem C150_feedforward (d : Dev) (hM : MadeOf (fun p => ∀ wl, Contracts (scattering p wl)) d) (ht : d.comp.terminated = true)
    (front : ℕ → Bool) (rank : ℕ → ℕ) (hff : FeedForward d front rank) (D : ℕ) (hD : ∀ i < d.comp.n, rank i ≤ D) (v : ℝ) (wl : W → ℝ)
    (hd : portsWith (d.plant v wl).det ≠ []) (dt : ℝ) (hdt : 0 < dt) (δ : ℝ) (m : ℕ) (h0 : 0 ≤ δ) (hs : (D + 1) * (m * δ) < 1)
    (S' : W → Matrix (Fin d.comp.n) (Fin d.comp.n) ℂ) (hS' : EndsDark (d.plant v wl) S') (hK : KeepsDelays (d.plant v wl) S')
    (hε : ∀ w, EntriesWithin δ m (cx ((d.plant v wl).rS w) ((d.plant v wl).iS w)) (S' w)) :
    RunsWithin ((D + 2) * (m * δ) / (1 - (D + 1) * (m * δ))) dt (d.plant v wl) (withS (d.plant v wl) S') := by
  obtain ⟨hc, L, hP, hL⟩ := madeOf_flat hM
  have htop : topRank d.comp.n rank ≤ D := Finset.sup_le fun i hi => hD i (Finset.mem_range.1 hi)
  have hφD : ∀ i : Fin d.comp.n, (if front i = true then rank i else topRank d.comp.n rank - rank i) ≤ D := by
    intro i
    split
    · exact hD i i.2
    · omega
  have hdev := fun w => Sens.deviates_of_entries (hε w) h0
  have hlev := fun w => Sens.ff_levels (madeOf_any hM) hff v wl w
  refine Sens.runs d (madeOf_any hM) ht v wl hd dt hdt (D + 1) (m * δ) (by positivity) (by positivity) hs
    (fun w => Sens.enhances_of_copies fun T => Sens.enhances_of_potential (Sens.copies_paired T (plant_paired hc ht v wl)) _
      (Sens.spread_contracts _ T (plant_contracts hL v wl hP w)) _ D (Sens.spread_levels _ T (hlev w)).up fun x => hφD x.1)
    S' hS' hK hdev _ fun w T c a b a' b' h h' => ?_
  rw [← Sens.power_flat]
  refine Sens.columns_near (Sens.copies_paired T (plant_paired hc ht v wl)) (Sens.spread_contracts _ T (plant_contracts hL v wl hP w))
    (Sens.spread_levels _ T (hlev w)) (fun x => hφD x.1) (by positivity) (Sens.spread_deviates _ T (by positivity) (hdev w)) hs
    (q := fun x => (d.plant v wl).det x.1) (fun x hx y => ?_) (fun x hx y => ?_) (Sens.solves_flat.1 h) (Sens.solves_flat.1 h')
  · have := (plant_term hL v wl w x.1 (by rw [hx, Bool.or_true]) y.1).2
    simp only [Sens.spread, Matrix.of_apply]
    rw [this, ite_self]
  · have hsi : (d.plant v wl).src x.1 = true := by
      by_contra hn
      apply hx
      show emitted _ _ _ = 0
      unfold emitted
      exact if_neg hn
    have := (plant_term hL v wl w x.1 (by rw [hsi, Bool.true_or]) y.1).1
    simp only [Sens.spread, Matrix.of_apply]
    rw [this, ite_self]

/-- C150. Meshes of any size, with the matrices computed in floating-point arithmetic, simulated over any time. -/
theorem C150_mesh [Nonempty W] {m : Libm} (hm : Accurate m) (T : ℝ) (hT : 0 ≤ T) (wl : W → ℝ)
    (rnd : (p : Part) → ℝ → Matrix (Fin p.n) (Fin p.n) ℂ) (hend : ∀ p, p = .source ∨ p = .detector → ∀ wl, rnd p wl = 0) (d : Dev)
    (hM : MadeOf (fun p => ∀ w, IsComputed m T (wl w) p (rnd p (wl w))) d) (ht : d.comp.terminated = true) (front : ℕ → Bool) (rank : ℕ → ℕ)
    (hff : FeedForward d front rank) (D : ℕ) (hD : ∀ i < d.comp.n, rank i ≤ D) (v : ℝ) (hd : portsWith (d.plant v wl).det ≠ [])
    (dt : ℝ) (hdt : 0 < dt) (δ : ℝ) (hδ : δ = 4 * (T / 2 ^ 47 + 1 / 2 ^ 17)) (hs : (D + 1) * δ < 1) :
    ∃ (L : List Part) (at_ : Fin d.comp.n → ℕ × ℕ),
      BlockWise scattering wl L at_ (fun w => cx ((d.plant v wl).rS w) ((d.plant v wl).iS w)) ∧
      (∃ S', BlockWise rnd wl L at_ S') ∧
      ∀ S', BlockWise rnd wl L at_ S' →
        RunsWithin ((D + 2) * δ / (1 - (D + 1) * δ)) dt (d.plant v wl) (withS (d.plant v wl) S') := by
  obtain ⟨w₀⟩ := ‹Nonempty W›
  have h0 : 0 ≤ T / 2 ^ 47 + 1 / 2 ^ 17 := by positivity
  obtain ⟨L, at_, -, h1, h2, h3⟩ := C149_components _ d hM v wl (T / 2 ^ 47 + 1 / 2 ^ 17) 4 h0
    (fun p hp => Sens.computed_small p _ (hp w₀)) rnd hend fun p hp w i j => Sens.computed_near hm p _ (hp w) hT i j
  refine ⟨L, at_, h1, h2, fun S' hS' => ?_⟩
  obtain ⟨h4, h5, h6⟩ := h3 S' hS'
  have hM' : MadeOf (fun p => ∀ wl, Contracts (scattering p wl)) d := by
    clear hff hD hd ht h1 h2 h3 h4 h5 h6 hS' S' at_ L
    induction hM with
    | part p hp h => exact .part p (Sens.computed_contracts p _ (hp w₀)) h
    | named d x _ ih => exact .named d x ih
    | net name modules cs d _ hg hu hc h ih => exact .net name modules cs d ih hg hu hc h
  have key := C150_feedforward d hM' ht front rank hff D hD v wl hd dt hdt
    (T / 2 ^ 47 + 1 / 2 ^ 17) 4 h0 (by rw [hδ] at hs; exact_mod_cast hs) S' h4 h5 h6
  rw [hδ]
  exact_mod_cast key

/-- Not vacuous: the lossy line of C66, if every matrix is too small by some fraction. -/
example : ∃ (d : Dev) (ε q : ℝ), d.comp.n = 4 ∧ 0 < ε ∧
    RunsWithin q 1e-14 (d.plant 1 fun _ : Unit => 1.5e-6) (withS (d.plant 1 fun _ : Unit => 1.5e-6) fun w =>
      ((1 - ε : ℝ) : ℂ) • cx ((d.plant 1 fun _ : Unit => 1.5e-6).rS w) ((d.plant 1 fun _ : Unit => 1.5e-6).iS w)) := by
  obtain ⟨d, ρ, ε, h1, h2, h3, h4, h5, h6, h7, h8, h9, h10⟩ := Sens.exAbsorbing
  exact ⟨d, ε, _, h5, h2, C150_absorbing d ρ h1 h6 h4 1 _ h7 1e-14 (by norm_num) ε h2.le h3 _ h8 h10 h9⟩

/-- Not vacuous: the line of C66, 10 µm long, away from its reference wavelength, simulated in steps of 10 fs. The result is wrong by at
most `1 / 8000`. -/
example : ∃ (m : Libm) (d : Dev) (L : List Part) (at_ : Fin d.comp.n → ℕ × ℕ) (S' : Unit → Matrix (Fin d.comp.n) (Fin d.comp.n) ℂ), Accurate m ∧
    d.comp.n = 4 ∧ BlockWise (Sens.exRnd m) (fun _ => 1.5e-6) L at_ S' ∧
    ∃ q : ℝ, q ≤ 1 / 8000 ∧ RunsWithin q 1e-14 (d.plant 1 fun _ => 1.5e-6) (withS (d.plant 1 fun _ => 1.5e-6) S') := by
  obtain ⟨m, d, hm, hM, hn, hdt, ht, hff⟩ := Sens.exComputed
  obtain ⟨L, at_, -, ⟨S', hS'⟩, h⟩ := C150_mesh hm 1000 (by norm_num) (fun _ : Unit => 1.5e-6) (Sens.exRnd m)
    (by rintro p (rfl | rfl) wl <;> rfl) d hM ht _ _ hff 2 (fun i hi => by rw [hn] at hi; show (i + 1) / 2 ≤ 2; omega) 1
    hdt 1e-14 (by norm_num) _ rfl (by norm_num)
  exact ⟨m, d, L, at_, S', hm, hn, hS', _, by norm_num, h S' hS'⟩

end PT
