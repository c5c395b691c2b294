import Verif.Proof.Undamped
import Verif.Props.Filters
import Verif.Props.Impulse
import Verif.Props.Lossy
import Verif.Spec.Drift

/-!
# C135: circuits that do not amplify settle, whatever oscillations persist in them
-/

namespace PT
open Spec Matrix

variable {W B : Type}

/-- The ports at which light enters or leaves the circuit. -/
noncomputable def ends (d : Dev) (v : ℝ) (wl : W → ℝ) (i : Fin d.comp.n) : Bool := (d.plant v wl).src i || (d.plant v wl).det i

/-- A circuit of components that do not amplify which can be initialized in the frequency domain can be initialized in every
environment. -/
theorem passive_initialized (d : Dev) (hM : MadeOf (fun p => ∀ wl, Contracts (scattering p wl)) d) (ht : d.comp.terminated = true)
    (v : ℝ) (wl wl' : W → ℝ) (hd : portsWith (d.plant v wl).det ≠ []) (dt : ℝ) (z : W → ℂ)
    (hS : ∀ w i j, cx ((d.plant v wl').rS w) ((d.plant v wl').iS w) i j =
      cx ((d.plant v wl).rS w) ((d.plant v wl).iS w) i j * (z w ^ circuitDelay d v wl dt j)⁻¹)
    (fenv : SimEnv) (hf : fenv.freqdomain = true) (r' : Reduced W) (hr' : initNet (d.plant v wl') fenv = .ok (some r'))
    (env : SimEnv) (henv : env.freqdomain = false ∧ env.dt = some dt ∨ ∀ w, z w = 1) : ∃ r, initNet (d.plant v wl) env = .ok (some r) := by
  obtain ⟨hc, L, hP, hL⟩ := madeOf_flat hM
  obtain ⟨i, hi⟩ := List.exists_mem_of_ne_nil _ hd
  refine C26_initialized _ env (plant_terminated hc ht v wl) ⟨i, mcAt_of_marked _ env i ?_⟩ fun w => ?_
  · rw [show (d.plant v wl).det i = true from (List.mem_filter.1 hi).2, Bool.or_true]
  refine pick_nullfree (plant_paired hc ht v wl) _ (cx ((d.plant v wl').rS w) ((d.plant v wl').iS w)) (plant_contracts hL v wl hP w)
    (fun a ha => freq_nullfree (d.plant v wl') fenv hf (plant_act hL v wl') (plant_term hL v wl') r' hr' w a ha) _
    ((List.nodup_finRange _).filter _) fun i j hj => ?_
  rw [hS w i j]
  rcases henv with ⟨h1, h2⟩ | h1
  · have : circuitDelay d v wl dt j = 0 := by
      have h3 := stepDelay_ml _ env _ ((mem_mlPorts _ env j).1 hj)
      rw [stepDelay_time _ env dt h2 h1] at h3
      rw [← h3]
      unfold circuitDelay Plant.marked
      rw [plant_act hL v wl, Bool.or_false]
    rw [this, pow_zero, inv_one, mul_one]
  · rw [h1, one_pow, inv_one, mul_one]

/-- The simulation of a modulated source, and the deviations from the steady state. -/
theorem passive_settles (d : Dev) (hM : MadeOf (fun p => ∀ wl, Contracts (scattering p wl)) d)
    (ht : d.comp.terminated = true) (v : ℝ) (wl wl' : W → ℝ) (dt : ℝ) (hpos : 0 < dt)
    (hd : portsWith (d.plant v wl).det ≠ []) (z : W → ℂ) (hz : ∀ w, ‖z w‖ = 1)
    (hS : ∀ w i j, cx ((d.plant v wl').rS w) ((d.plant v wl').iS w) i j =
      cx ((d.plant v wl).rS w) ((d.plant v wl).iS w) i j * (z w ^ circuitDelay d v wl dt j)⁻¹)
    (fenv : SimEnv) (hf : fenv.freqdomain = true) (ht1 : fenv.t.length = 1) (r' : Reduced W)
    (hr' : initNet (d.plant v wl') fenv = .ok (some r')) (cs' : List (Actor W B)) (amp : ℕ → W → B → ℝ × ℝ) :
    ∃ o, forwardReduced r' fenv cs' (fun _ => amp) = .ok [o] ∧ ∀ w b ε, 0 < ε →
      ∃ N, ∀ (ts : List ℝ) (cs : List (Actor W B)), ∃ (r : Reduced W) (out : List (W → B → List (ℝ × ℝ))),
        initNet (d.plant v wl) ⟨some dt, false, ts⟩ = .ok (some r) ∧
        forwardReduced r ⟨some dt, false, ts⟩ cs (modulated z amp) = .ok out ∧ out.length = ts.length ∧
          ∀ t (h : t < out.length), N ≤ t → CloseUpTo ε (z w ^ t) (out[t] w b) (o w b) := by
  obtain ⟨hc, L, hP, hL⟩ := madeOf_flat hM
  have hM' : MadeOf (fun _ => True) d := hM.mono fun _ _ => trivial
  have hinit := fun ts => passive_initialized d hM ht v wl wl' hd dt z hS fenv hf r' hr' ⟨some dt, false, ts⟩ (.inl ⟨rfl, rfl⟩)
  obtain ⟨o, ho, hso⟩ := C66_freq_domain d hM' v wl' fenv hf ht1 hd r' hr' cs' (fun _ => amp)
  refine ⟨o, ho, fun w b ε hε => ?_⟩
  obtain ⟨⟨a₀, b₀, h₀⟩, hu₀⟩ := hso w b
  have hov := hu₀ a₀ b₀ h₀
  obtain ⟨r₁, hr₁⟩ := hinit []
  have h0 := no_instant (d.plant v wl) ⟨some dt, false, []⟩ dt rfl rfl (plant_exclusive hL v wl) (plant_act hL v wl)
    (circuitDelay d v wl dt) (fun _ => rfl) (circuit_mix hL v wl dt) r₁ hr₁ w
  obtain ⟨N, hN⟩ := deviation_settles (plant_paired hc ht v wl) (cx ((d.plant v wl).rS w) ((d.plant v wl).iS w))
    (cx ((d.plant v wl').rS w) ((d.plant v wl').iS w)) (plant_contracts hL v wl hP w) (ends d v wl)
    (fun j hj i => (plant_term hL v wl w j hj i).2) (circuitDelay d v wl dt) h0 (z w) (hz w) (hS w) _ a₀ b₀ h₀ ε hε
  refine ⟨N, fun ts cs => ?_⟩
  obtain ⟨r, hr⟩ := hinit ts
  obtain ⟨out, hout, hlen, hsol⟩ := C66_time_domain d hM' v wl ⟨some dt, false, ts⟩ dt rfl hpos rfl hd r hr cs
    (modulated z amp)
  refine ⟨r, out, hr, hout, hlen, fun t h hNt => ?_⟩
  obtain ⟨⟨a, b', hab⟩, hu⟩ := hsol w b
  have hv := hu a b' hab t h
  have hclose := hN ts.length a b' (modulated_solves hab) t hNt (by rw [← hlen]; exact h)
  rw [hv, hov]
  refine ⟨by simp [show (d.plant v wl').det = (d.plant v wl).det from rfl], fun q y y' hy hy' => ?_⟩
  rw [show (d.plant v wl').det = (d.plant v wl).det from rfl] at hy'
  rw [List.getElem?_map, Option.map_eq_some_iff] at hy hy'
  obtain ⟨i, hi, rfl⟩ := hy
  obtain ⟨i', hi', rfl⟩ := hy'
  rw [hi] at hi'
  cases hi'
  refine hclose i ?_
  unfold ends
  rw [show (d.plant v wl).det i = true from (List.mem_filter.1 (List.mem_of_getElem? hi)).2, Bool.or_true]
where
  modulated_solves {d : Dev} {v : ℝ} {wl : W → ℝ} {dt : ℝ} {z : W → ℂ} {amp : ℕ → W → B → ℝ × ℝ} {w : W} {b : B} {T : ℕ}
      {a b' : ℕ → Fin d.comp.n → ℂ} (hab : Solves (cx (d.plant v wl).C 0) (cx ((d.plant v wl).rS w) ((d.plant v wl).iS w))
        (circuitDelay d v wl dt) T (fun t => emitted (d.plant v wl).src fun k => asComplex (modulated z amp t k w b)) a b') :
      Solves (cx (d.plant v wl).C 0) (cx ((d.plant v wl).rS w) ((d.plant v wl).iS w)) (circuitDelay d v wl dt) T
        (fun t => z w ^ t • emitted (d.plant v wl).src fun k => asComplex (amp k w b)) a b' := by
    refine solves_congr (fun t _ => ?_) hab
    funext i
    simp only [emitted, Pi.smul_apply, smul_eq_mul]
    by_cases hi : (d.plant v wl).src i = true
    · rw [if_pos hi, if_pos hi]
      apply Complex.ext <;> rfl
    · rw [if_neg hi, if_neg hi, mul_zero]

theorem unshifted (d : Dev) (v : ℝ) (wl : W → ℝ) (dt : ℝ) (w : W) (i j : Fin d.comp.n) :
    cx ((d.plant v wl).rS w) ((d.plant v wl).iS w) i j =
      cx ((d.plant v wl).rS w) ((d.plant v wl).iS w) i j * ((fun _ => 1 : W → ℂ) w ^ circuitDelay d v wl dt j)⁻¹ := by
  rw [one_pow, inv_one, mul_one]

theorem constant_source (amp : ℕ → W → B → ℝ × ℝ) : (modulated (fun _ => 1) amp : ℕ → ℕ → W → B → ℝ × ℝ) = fun _ => amp := by
  funext t k w b
  unfold modulated asComplex
  simp

/-- C135. A circuit of components that do not amplify which can be initialized in the frequency domain can be initialized in every
other environment. -/
theorem C135_initialized (d : Dev) (hM : MadeOf (fun p => ∀ wl, Contracts (scattering p wl)) d) (ht : d.comp.terminated = true)
    (v : ℝ) (wl : W → ℝ) (hd : portsWith (d.plant v wl).det ≠ [])
    (fenv : SimEnv) (hf : fenv.freqdomain = true) (r' : Reduced W) (hr' : initNet (d.plant v wl) fenv = .ok (some r'))
    (env : SimEnv) : ∃ r, initNet (d.plant v wl) env = .ok (some r) :=
  passive_initialized d hM ht v wl wl hd 0 (fun _ => 1) (unshifted d v wl 0) fenv hf r' hr' env (.inr fun _ => rfl)

/-- C135. With a constant source the detected fields of every circuit of components that do not amplify approach the result of the
frequency domain, if that exists. No oscillation has to be damped. -/
theorem C135_settles (d : Dev) (hM : MadeOf (fun p => ∀ wl, Contracts (scattering p wl)) d) (ht : d.comp.terminated = true)
    (v : ℝ) (wl : W → ℝ) (dt : ℝ) (hpos : 0 < dt) (hd : portsWith (d.plant v wl).det ≠ [])
    (fenv : SimEnv) (hf : fenv.freqdomain = true) (ht1 : fenv.t.length = 1) (r' : Reduced W)
    (hr' : initNet (d.plant v wl) fenv = .ok (some r')) (cs' : List (Actor W B)) (amp : ℕ → W → B → ℝ × ℝ) :
    ∃ o, forwardReduced r' fenv cs' (fun _ => amp) = .ok [o] ∧ ∀ w b ε, 0 < ε →
      ∃ N, ∀ (ts : List ℝ) (cs : List (Actor W B)), ∃ (r : Reduced W) (out : List (W → B → List (ℝ × ℝ))),
        initNet (d.plant v wl) ⟨some dt, false, ts⟩ = .ok (some r) ∧
        forwardReduced r ⟨some dt, false, ts⟩ cs (fun _ => amp) = .ok out ∧ out.length = ts.length ∧
          ∀ t (h : t < out.length), N ≤ t → CloseUpTo ε 1 (out[t] w b) (o w b) := by
  obtain ⟨o, ho, h⟩ := passive_settles d hM ht v wl wl dt hpos hd (fun _ => 1) (fun _ => norm_one) (unshifted d v wl dt)
    fenv hf ht1 r' hr' cs' amp
  refine ⟨o, ho, fun w b ε hε => ?_⟩
  obtain ⟨N, hN⟩ := h w b ε hε
  refine ⟨N, fun ts cs => ?_⟩
  obtain ⟨r, out, h1, h2, h3, h4⟩ := hN ts cs
  rw [constant_source] at h2
  exact ⟨r, out, h1, h2, h3, fun t ht hNt => by have := h4 t ht hNt; rwa [one_pow] at this⟩

/-- C135. A modulated source, likewise: the detected fields approach those at the shifted wavelength. -/
theorem C135_modulated (d : Dev) (v : ℝ) (hv : v ≠ 0) (dt : ℝ) (hpos : 0 < dt)
    (hM : MadeOf (fun p => (∀ wl, Contracts (scattering p wl)) ∧ Dispersive p ∧ ∃ n : ℕ, p.delay v = n * dt) d)
    (ht : d.comp.terminated = true) (wl wl' : W → ℝ) (hwl : ∀ w, wl w ≠ 0 ∧ wl' w ≠ 0)
    (hd : portsWith (d.plant v wl).det ≠ [])
    (fenv : SimEnv) (hf : fenv.freqdomain = true) (ht1 : fenv.t.length = 1) (r' : Reduced W)
    (hr' : initNet (d.plant v wl') fenv = .ok (some r')) (cs' : List (Actor W B)) (amp : ℕ → W → B → ℝ × ℝ) :
    ∃ o, forwardReduced r' fenv cs' (fun _ => amp) = .ok [o] ∧ ∀ w b ε, 0 < ε →
      ∃ N, ∀ (ts : List ℝ) (cs : List (Actor W B)), ∃ (r : Reduced W) (out : List (W → B → List (ℝ × ℝ))),
        initNet (d.plant v wl) ⟨some dt, false, ts⟩ = .ok (some r) ∧
        forwardReduced r ⟨some dt, false, ts⟩ cs (modulated (fun w => detuning v (wl w) (wl' w) dt) amp) = .ok out ∧
          out.length = ts.length ∧
          ∀ t (h : t < out.length), N ≤ t → CloseUpTo ε (detuning v (wl w) (wl' w) dt ^ t) (out[t] w b) (o w b) :=
  passive_settles d (hM.mono fun _ h => h.1) ht v wl wl' dt hpos hd (fun w => detuning v (wl w) (wl' w) dt)
    (fun _ => Complex.norm_exp_ofReal_mul_I _) (shifted_scattering d v hv dt hpos hM wl wl' hwl) fenv hf ht1 r' hr' cs' amp

/-- C135. One simulation of a pulse gives the spectrum of every circuit of components that do not amplify, wherever it has one: the
Fourier sums of the response converge to the response in the frequency domain, even if light circulates for ever. -/
theorem C135_spectrum (d : Dev) (v : ℝ) (hv : v ≠ 0) (dt : ℝ) (hpos : 0 < dt)
    (hM : MadeOf (fun p => (∀ wl, Contracts (scattering p wl)) ∧ Dispersive p ∧ ∃ n : ℕ, p.delay v = n * dt) d)
    (ht : d.comp.terminated = true) (wl wl' : W → ℝ) (hwl : ∀ w, wl w ≠ 0 ∧ wl' w ≠ 0)
    (hd : portsWith (d.plant v wl).det ≠ [])
    (fenv : SimEnv) (hf : fenv.freqdomain = true) (ht1 : fenv.t.length = 1) (r' : Reduced W)
    (hr' : initNet (d.plant v wl') fenv = .ok (some r')) (cs' : List (Actor W B)) (k : ℕ)
    (hk : k < (portsWith (d.plant v wl).src).length) :
    ∃ o, forwardReduced r' fenv cs' (fun _ => steady k) = .ok [o] ∧ ∀ w b ε, 0 < ε →
      ∃ N, ∀ (ts : List ℝ) (cs : List (Actor W B)), ∃ (r : Reduced W) (resp : List (W → B → List (ℝ × ℝ))),
        initNet (d.plant v wl) ⟨some dt, false, ts⟩ = .ok (some r) ∧
        forwardReduced r ⟨some dt, false, ts⟩ cs (pulse k) = .ok resp ∧ resp.length = ts.length ∧
          ∀ n, N ≤ n → n ≤ ts.length → ∀ q,
            ‖∑ τ ∈ Finset.range n, (detuning v (wl w) (wl' w) dt ^ τ)⁻¹ * heardAt resp τ w b q - heardAt [o] 0 w b q‖ < ε := by
  obtain ⟨o, ho, hconv⟩ := C135_modulated d v hv dt hpos hM ht wl wl' hwl hd fenv hf ht1 r' hr' cs' (steady k)
  refine ⟨o, ho, fun w b ε hε => ?_⟩
  obtain ⟨N, hN⟩ := hconv w b ε hε
  obtain ⟨-, L, hP, hL⟩ := madeOf_flat hM
  refine ⟨N + 1, fun ts cs => ?_⟩
  obtain ⟨r, out, hr, hout, hlen, hclose⟩ := hN ts cs
  obtain ⟨resp, hresp⟩ := forward_ok_any r ⟨some dt, false, ts⟩ cs cs _ (pulse k) _ hout
  refine ⟨r, resp, hr, hresp, (forward_shape hresp).1, fun n hn hn' q => ?_⟩
  obtain ⟨t, rfl⟩ : ∃ t, n = t + 1 := ⟨n - 1, by omega⟩
  have hz : ∀ w, ‖detuning v (wl w) (wl' w) dt‖ = 1 := fun w => Complex.norm_exp_ofReal_mul_I _
  rw [modulated_field (d.plant v wl) ⟨some dt, false, ts⟩ (plant_act hL v wl) r hr cs _ hz k hk out resp hout hresp t (by exact hn') w b q]
  exact fourier_close hε (by rw [norm_pow, hz, one_pow]) (by omega) (hclose t (by omega) (by omega)) q

theorem mismatch_ports {n : ℕ} (q : Fin n → Bool) (a c : Fin n → ℂ) :
    mismatch ((portsWith q).map fun i => ((a i).re, (a i).im)) ((portsWith q).map fun i => ((c i).re, (c i).im)) = powerAt q (a - c) := by
  unfold mismatch powerAt portsWith
  rw [List.zipWith_map, List.zipWith_self]
  have : ∀ l : List (Fin n), ((l.filter q).map fun i => ((a i).re - (c i).re) ^ 2 + ((a i).im - (c i).im) ^ 2).sum =
      (l.map fun i => if q i = true then Complex.normSq ((a - c) i) else 0).sum := by
    intro l
    induction l with
    | nil => rfl
    | cons i l ih =>
      by_cases hi : q i = true
      · rw [List.filter_cons_of_pos hi, List.map_cons, List.sum_cons, ih, List.map_cons, List.sum_cons, if_pos hi]
        congr 1
        rw [Complex.normSq_apply, Pi.sub_apply, Complex.sub_re, Complex.sub_im]
        ring
      · rw [List.filter_cons_of_neg hi, ih, List.map_cons, List.sum_cons, if_neg hi, zero_add]
  rw [this, ← List.ofFn_id, List.map_ofFn, List.sum_ofFn]
  rfl

theorem sum_map_fin {α : Type*} (l : List α) (g : α → ℝ) : (l.map g).sum = ∑ t : Fin l.length, g l[t] := by
  conv_lhs => rw [← List.ofFn_getElem (xs := l)]
  rw [List.map_ofFn, List.sum_ofFn]
  rfl

/-- C135. How much settling takes: with a constant source, the sum over all steps of the squared deviation of the detected fields from
those of the frequency domain is at most the energy that is inside the components in the steady state, the light `a` entering each
port for the time of its delay. -/
theorem C135_deviation (d : Dev) (hM : MadeOf (fun p => ∀ wl, Contracts (scattering p wl)) d) (ht : d.comp.terminated = true)
    (v : ℝ) (wl : W → ℝ) (dt : ℝ) (hpos : 0 < dt) (hd : portsWith (d.plant v wl).det ≠ [])
    (fenv : SimEnv) (hf : fenv.freqdomain = true) (ht1 : fenv.t.length = 1) (r' : Reduced W)
    (hr' : initNet (d.plant v wl) fenv = .ok (some r')) (cs' : List (Actor W B)) (amp : ℕ → W → B → ℝ × ℝ) :
    ∃ o, forwardReduced r' fenv cs' (fun _ => amp) = .ok [o] ∧ ∀ (ts : List ℝ) (cs : List (Actor W B)),
      ∃ (r : Reduced W) (out : List (W → B → List (ℝ × ℝ))), initNet (d.plant v wl) ⟨some dt, false, ts⟩ = .ok (some r) ∧
        forwardReduced r ⟨some dt, false, ts⟩ cs (fun _ => amp) = .ok out ∧ out.length = ts.length ∧ ∀ w b, ∃ a b',
          SolvesStatic (cx (d.plant v wl).C 0) (cx ((d.plant v wl).rS w) ((d.plant v wl).iS w))
            (emitted (d.plant v wl).src fun k => asComplex (amp k w b)) a b' ∧
          (out.map fun f => mismatch (f w b) (o w b)).sum ≤
            ∑ i, if (d.plant v wl).src i || (d.plant v wl).det i then 0 else circuitDelay d v wl dt i * Complex.normSq (a i) := by
  obtain ⟨hc, L, hP, hL⟩ := madeOf_flat hM
  have hM' : MadeOf (fun _ => True) d := hM.mono fun _ _ => trivial
  obtain ⟨o, ho, hso⟩ := C66_freq_domain d hM' v wl fenv hf ht1 hd r' hr' cs' (fun _ => amp)
  refine ⟨o, ho, fun ts cs => ?_⟩
  obtain ⟨r, hr⟩ := C135_initialized d hM ht v wl hd fenv hf r' hr' ⟨some dt, false, ts⟩
  obtain ⟨out, hout, hlen, hsol⟩ := C66_time_domain d hM' v wl ⟨some dt, false, ts⟩ dt rfl hpos rfl hd r hr cs (fun _ => amp)
  refine ⟨r, out, hr, hout, hlen, fun w b => ?_⟩
  obtain ⟨⟨a₀, b₀, h₀⟩, hu₀⟩ := hso w b
  obtain ⟨⟨a, b', hab⟩, hu⟩ := hsol w b
  refine ⟨a₀, b₀, h₀, ?_⟩
  have key := deviation_le (plant_paired hc ht v wl) (cx ((d.plant v wl).rS w) ((d.plant v wl).iS w))
    (cx ((d.plant v wl).rS w) ((d.plant v wl).iS w)) (plant_contracts hL v wl hP w) (ends d v wl)
    (fun j hj i => (plant_term hL v wl w j hj i).2) (circuitDelay d v wl dt) 1 norm_one (fun i j => unshifted d v wl dt w i j)
    _ a₀ b₀ h₀ ts.length a b' (solves_congr (fun t _ => by rw [one_pow, one_smul]) hab)
  refine le_trans ?_ key
  rw [sum_map_fin out fun f => mismatch (f w b) (o w b), ← hlen, Finset.sum_range]
  refine Finset.sum_le_sum fun t _ => ?_
  rw [show out[t] w b = _ from hu a b' hab t t.2, hu₀ a₀ b₀ h₀, one_pow, one_smul, mismatch_ports]
  refine Finset.sum_le_sum fun i _ => ?_
  unfold ends
  by_cases hi : (d.plant v wl).det i = true
  · rw [if_pos hi, hi, Bool.or_true, if_pos rfl]
  · rw [if_neg hi]
    split
    · exact Complex.normSq_nonneg _
    · exact le_rfl

/-! ## The ring filter -/

theorem allPass_made (P : Part → Prop) (k : ℝ) (x y z : Wg) (hs : P .source) (hd : P .detector) (hk : P (.coupler k)) (hx : P x.part)
    (hy : P y.part) (hz : P z.part) (d : Dev) (h : LinkedNet (allPassModules k x y z) allPassLinks d) : MadeOf P d := by
  refine .net none _ allPassConns d ?_ (goodConns_dec (by decide +kernel)) ⟨by decide +kernel, by decide +kernel⟩
    ⟨by decide +kernel, by decide +kernel, by decide +kernel⟩ (by rw [← allPass_conns.2]; exact h.2)
  intro p hp
  simp only [allPassModules, List.map_cons, List.map_nil, List.mem_cons, List.not_mem_nil, or_false] at hp
  rcases hp with rfl | rfl | rfl | rfl | rfl | rfl
  · exact .part _ hs Nat.one_pos
  · exact .part _ hx Nat.two_pos
  · exact .part _ hk (by decide : 0 < 4)
  · exact .part _ hy Nat.two_pos
  · exact .part _ hz Nat.two_pos
  · exact .part _ hd Nat.one_pos

theorem wg_contracts (g : Wg) (h : 0 ≤ g.length ∧ 0 ≤ g.loss) (wl : ℝ) : Contracts (scattering g.part wl) :=
  C65_contracts_partial g.part (by first | exact h | exact ⟨h.2, h.1⟩) (by simp [Wg.part]) wl

theorem allPass_contracts (k : ℝ) (hk : 0 ≤ k ∧ k ≤ 1) (x y z : Wg) (hx : 0 ≤ x.length ∧ 0 ≤ x.loss) (hy : 0 ≤ y.length ∧ 0 ≤ y.loss)
    (hz : 0 ≤ z.length ∧ 0 ≤ z.loss) (d : Dev) (h : LinkedNet (allPassModules k x y z) allPassLinks d) :
    MadeOf (fun p => ∀ wl, Contracts (scattering p wl)) d :=
  allPass_made _ k x y z (C65_contracts_partial .source trivial (by simp)) (C65_contracts_partial .detector trivial (by simp))
    (C65_contracts_partial (.coupler k) hk (by simp)) (wg_contracts x hx) (wg_contracts y hy) (wg_contracts z hz) d h

theorem allPass_det (k : ℝ) (x y z : Wg) (d : Dev) (h : LinkedNet (allPassModules k x y z) allPassLinks d) (v : ℝ) (wl : W → ℝ) :
    d.comp.terminated = true ∧ portsWith (d.plant v wl).det ≠ [] ∧ (portsWith (d.plant v wl).src).length = 1 := by
  obtain ⟨d', hd', hM, hW⟩ := allPass_wired k x y z
  have h1 := h.2
  rw [hd'.2] at h1
  cases h1
  refine ⟨hW.term, fun h0 => ?_, ?_⟩
  swap
  · rw [← List.length_map Fin.val]
    exact congrArg List.length (allPass_marks hW).1
  have : ([] : List ℕ) = [9] := by
    rw [← (allPass_marks hW).2]
    exact (congrArg (List.map Fin.val) h0).symm
  cases this

/-- C135. The ring on a bus: in the time domain, with any time step, the detected field approaches the textbook formula, whenever that
has a value. The ring need not lose light, and the coupler need not couple. -/
theorem C135_ring (k : ℝ) (hk : 0 ≤ k ∧ k ≤ 1) (x y z : Wg) (hx : 0 ≤ x.length ∧ 0 ≤ x.loss) (hy : 0 ≤ y.length ∧ 0 ≤ y.loss)
    (hz : 0 ≤ z.length ∧ 0 ≤ z.loss) :
    ∃ d, LinkedNet (allPassModules k x y z) allPassLinks d ∧ ∀ (W B : Type) (v : ℝ) (wl : W → ℝ) (dt : ℝ), 0 < dt →
      (∀ w, √(1 - k) * z.amp (wl w) ≠ 1) → ∀ (amp : ℕ → W → B → ℝ × ℝ) w b ε, 0 < ε →
      ∃ N, ∀ (ts : List ℝ) (cs : List (Actor W B)), ∃ (r : Reduced W) (out : List (W → B → List (ℝ × ℝ))),
        initNet (d.plant v wl) ⟨some dt, false, ts⟩ = .ok (some r) ∧
        forwardReduced r ⟨some dt, false, ts⟩ cs (fun _ => amp) = .ok out ∧ out.length = ts.length ∧
          ∀ t (h : t < out.length), N ≤ t → ∃ q, out[t] w b = [q] ∧
            ‖asComplex q - x.amp (wl w) * y.amp (wl w) * ((√(1 - k) - z.amp (wl w)) / (1 - √(1 - k) * z.amp (wl w))) *
              asComplex (amp 0 w b)‖ < ε := by
  obtain ⟨d, hd, H⟩ := C89_all_pass k hk x y z
  refine ⟨d, hd, fun W B v wl dt hpos hne amp w b ε hε => ?_⟩
  obtain ⟨r', hr', hfr⟩ := (H W B v wl ⟨none, true, [0]⟩ rfl rfl).1 hne
  obtain ⟨o', ho', hfo⟩ := hfr [] (fun _ => amp)
  obtain ⟨ht, hdet, hsrc⟩ := allPass_det k x y z d hd v wl
  obtain ⟨o, ho, h⟩ := C135_settles d (allPass_contracts k hk x y z hx hy hz d hd) ht v wl dt hpos hdet ⟨none, true, [0]⟩ rfl rfl r' hr' []
    amp
  rw [ho'] at ho
  cases ho
  obtain ⟨N, hN⟩ := h w b ε hε
  refine ⟨N, fun ts cs => ?_⟩
  obtain ⟨r, out, h1, h2, h3, h4⟩ := hN ts cs
  refine ⟨r, out, h1, h2, h3, fun t ht hNt => ?_⟩
  obtain ⟨hl, hc⟩ := h4 t ht hNt
  have hv := hfo w b
  obtain ⟨y', hy'⟩ : ∃ y', o' w b = [y'] := List.length_eq_one_iff.1 (by rw [← List.length_map asComplex, hv, List.length_singleton])
  obtain ⟨q, hq⟩ : ∃ q, out[t] w b = [q] := List.length_eq_one_iff.1 (by rw [hl, hy', List.length_singleton])
  refine ⟨q, hq, ?_⟩
  have := hc 0 q y' (by rw [hq]; rfl) (by rw [hy']; rfl)
  rw [one_mul] at this
  rw [hy'] at hv
  rw [← (List.cons.inj hv).1]
  exact this

/-! ## Examples -/

/-- A ring of 10 µm without loss. -/
noncomputable def quietRing : Wg := ⟨1e-5, 0, 2, 1.55e-6, 2, 0⟩

theorem quietRing_amp : quietRing.amp (4e-5 / 27) = -1 ∧ quietRing.amp (4e-5 / 26) = 1 := by
  unfold Wg.amp quietRing
  constructor
  · rw [show ((2 * Real.pi * (2 + (1.55e-6 - 4e-5 / 27) * (2 - 2) / 1.55e-6) * 1e-5 / (4e-5 / 27) + 0 : ℝ) : ℂ) * Complex.I =
      Real.pi * Complex.I + 13 * (2 * Real.pi * Complex.I) by push_cast; ring]
    rw [Complex.exp_add, Complex.exp_pi_mul_I, show (13 : ℂ) = (13 : ℕ) by norm_num, Complex.exp_nat_mul_two_pi_mul_I]
    norm_num
  · rw [show ((2 * Real.pi * (2 + (1.55e-6 - 4e-5 / 26) * (2 - 2) / 1.55e-6) * 1e-5 / (4e-5 / 26) + 0 : ℝ) : ℂ) * Complex.I =
      13 * (2 * Real.pi * Complex.I) by push_cast; ring]
    rw [show (13 : ℂ) = (13 : ℕ) by norm_num, Complex.exp_nat_mul_two_pi_mul_I]
    norm_num

/-- Between its resonances a ring without loss that is not coupled at all does no harm. -/
example : ∃ d, LinkedNet (allPassModules 0 quietRing quietRing quietRing) allPassLinks d ∧ ∀ ε, 0 < ε →
    ∃ N, ∀ (ts : List ℝ), ∃ (r : Reduced Unit) (out : List (Unit → Unit → List (ℝ × ℝ))),
      initNet (d.plant 3e8 fun _ => 4e-5 / 27) ⟨some 1e-14, false, ts⟩ = .ok (some r) ∧
      forwardReduced r ⟨some 1e-14, false, ts⟩ [] (fun _ _ _ _ => (1, 0)) = .ok out ∧
        ∀ t (h : t < out.length), N ≤ t → ∃ q, out[t] () () = [q] ∧ ‖asComplex q - 1‖ < ε := by
  obtain ⟨d, hd, h⟩ := C135_ring 0 (by norm_num) quietRing quietRing quietRing (by norm_num [quietRing]) (by norm_num [quietRing])
    (by norm_num [quietRing])
  refine ⟨d, hd, fun ε hε => ?_⟩
  obtain ⟨N, hN⟩ := h Unit Unit 3e8 (fun _ => 4e-5 / 27) 1e-14 (by norm_num) (fun _ => by rw [quietRing_amp.1]; norm_num)
    (fun _ _ _ => (1, 0)) () () ε hε
  refine ⟨N, fun ts => ?_⟩
  obtain ⟨r, out, h1, h2, -, h4⟩ := hN ts []
  refine ⟨r, out, h1, h2, fun t ht hNt => ?_⟩
  obtain ⟨q, h5, h6⟩ := h4 t ht hNt
  refine ⟨q, h5, ?_⟩
  rw [quietRing_amp.1] at h6
  convert h6 using 3
  have : asComplex (1, 0) = 1 := rfl
  rw [this]
  norm_num

theorem quietRing_made (d : Dev) (hd : LinkedNet (allPassModules 0 quietRing quietRing quietRing) allPassLinks d) :
    MadeOf (fun p => (∀ wl, Contracts (scattering p wl)) ∧ Dispersive p ∧ ∃ n : ℕ, p.delay 3e8 = n * (2e-5 / 3e8)) d := by
  have hp : 0 ≤ quietRing.length ∧ 0 ≤ quietRing.loss := by norm_num [quietRing]
  have hg : (∀ wl, Contracts (scattering quietRing.part wl)) ∧ Dispersive quietRing.part ∧
      ∃ n : ℕ, quietRing.part.delay 3e8 = n * (2e-5 / 3e8) :=
    ⟨wg_contracts _ hp, C81_waveguide_partial _ _ _ _ _ _ (by norm_num [quietRing]), 1, by
      show lengthDelay 2 1e-5 3e8 = _
      unfold lengthDelay
      norm_num⟩
  exact allPass_made (fun p => (∀ wl, Contracts (scattering p wl)) ∧ Dispersive p ∧ ∃ n : ℕ, p.delay 3e8 = n * (2e-5 / 3e8)) 0 _ _ _
    ⟨C65_contracts_partial .source trivial (by simp), dispersive_constant _ (fun _ _ => rfl) (fun _ => rfl), 0, by simp [Part.delay]⟩
    ⟨C65_contracts_partial .detector trivial (by simp), dispersive_constant _ (fun _ _ => rfl) (fun _ => rfl), 0, by simp [Part.delay]⟩
    ⟨C65_contracts_partial _ (by constructor <;> norm_num) (by simp), dispersive_constant _ (fun _ _ => rfl) (fun _ => rfl), 0,
      by simp [Part.delay]⟩ hg hg hg d hd

/-- The light in it would circulate for ever: the circuit is not damped, and C82 does not say anything about it. -/
example (d : Dev) (hd : LinkedNet (allPassModules 0 quietRing quietRing quietRing) allPassLinks d) :
    ¬Damped (cx (d.plant 3e8 fun _ : Unit => 4e-5 / 27).C 0)
      (cx ((d.plant 3e8 fun _ : Unit => 4e-5 / 27).rS ()) ((d.plant 3e8 fun _ : Unit => 4e-5 / 27).iS ()))
      (circuitDelay d 3e8 (fun _ : Unit => 4e-5 / 27) (2e-5 / 3e8)) := by
  intro hD
  obtain ⟨ht, hdet, hsrc⟩ := allPass_det 0 quietRing quietRing quietRing d hd 3e8 fun _ : Unit => 4e-5 / 27
  have hM := quietRing_made d hd
  obtain ⟨r', o, hr', -⟩ := C83_modulated (B := Unit) d 3e8 (by norm_num) (2e-5 / 3e8) (by norm_num) hM ht (fun _ : Unit => 4e-5 / 27)
    (fun _ => 4e-5 / 26) (fun _ => by norm_num) hdet (fun _ => hD) ⟨none, true, [0]⟩ rfl rfl [] fun _ _ _ => (1, 0)
  obtain ⟨d', hd', H⟩ := C89_all_pass 0 (by norm_num) quietRing quietRing quietRing
  have h1 := hd.2
  rw [hd'.2] at h1
  cases h1
  have := (H Unit Unit 3e8 (fun _ => 4e-5 / 26) ⟨none, true, [0]⟩ rfl rfl).2 ⟨(), by rw [quietRing_amp.2]; norm_num⟩
  rw [hr'] at this
  cases this

/-- The spectrum of the ring between its resonances, from the response to a pulse, even if the carrier is at a resonance. -/
example (d : Dev) (hd : LinkedNet (allPassModules 0 quietRing quietRing quietRing) allPassLinks d) :
    ∃ (r' : Reduced Unit) (o : Unit → Unit → List (ℝ × ℝ)), initNet (d.plant 3e8 fun _ => 4e-5 / 27) ⟨none, true, [0]⟩ = .ok (some r') ∧
      forwardReduced r' ⟨none, true, [0]⟩ [] (fun _ => steady 0) = .ok [o] ∧ ∀ ε, 0 < ε → ∃ N, ∀ ts, ∃ r resp,
        initNet (d.plant 3e8 fun _ => 4e-5 / 26) ⟨some (2e-5 / 3e8), false, ts⟩ = .ok (some r) ∧
        forwardReduced r ⟨some (2e-5 / 3e8), false, ts⟩ [] (pulse 0) = .ok resp ∧ ∀ n, N ≤ n → n ≤ ts.length → ∀ q,
          ‖∑ τ ∈ Finset.range n, (detuning 3e8 (4e-5 / 26) (4e-5 / 27) (2e-5 / 3e8) ^ τ)⁻¹ * heardAt resp τ () () q -
            heardAt [o] 0 () () q‖ < ε := by
  obtain ⟨ht, hdet, hsrc⟩ := allPass_det 0 quietRing quietRing quietRing d hd 3e8 fun _ : Unit => 4e-5 / 26
  obtain ⟨d', hd', H⟩ := C89_all_pass 0 (by norm_num) quietRing quietRing quietRing
  have h1 := hd.2
  rw [hd'.2] at h1
  cases h1
  obtain ⟨r', hr', -⟩ := (H Unit Unit 3e8 (fun _ => 4e-5 / 27) ⟨none, true, [0]⟩ rfl rfl).1 fun _ => by rw [quietRing_amp.1]; norm_num
  obtain ⟨o, ho, h⟩ := C135_spectrum (B := Unit) d 3e8 (by norm_num) (2e-5 / 3e8) (by norm_num) (quietRing_made d hd) ht
    (fun _ : Unit => 4e-5 / 26) (fun _ => 4e-5 / 27) (fun _ => by norm_num) hdet ⟨none, true, [0]⟩ rfl rfl r' hr' [] 0 (by rw [hsrc]; exact one_pos)
  refine ⟨r', o, hr', ho, fun ε hε => ?_⟩
  obtain ⟨N, hN⟩ := h () () ε hε
  refine ⟨N, fun ts => ?_⟩
  obtain ⟨r, resp, h1, h2, -, h4⟩ := hN ts []
  exact ⟨r, resp, h1, h2, h4⟩

end PT
