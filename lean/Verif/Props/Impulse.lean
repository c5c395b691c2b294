import Verif.Spec.Impulse
import Verif.Props.Modulate

/-!
# C114: the response to a pulse determines every simulation, and its Fourier transform is the spectrum
-/

namespace PT
open Spec Matrix

variable {W B : Type}

theorem fieldAt_some {out : List (W → B → List (ℝ × ℝ))} {t : ℕ} {f : W → B → List (ℝ × ℝ)} (h : out[t]? = some f) (w : W) (b : B) (q : ℕ) :
    heardAt out t w b q = (((f w b).map asComplex)[q]?).getD 0 := by
  unfold heardAt
  rw [h, List.getElem?_map]
  dsimp only
  cases (f w b)[q]? <;> rfl

/-- The number of detected fields. -/
def numFields (r : Reduced W) (env : SimEnv) : ℕ :=
  open Classical in if sliceLen r.m r.numDet = r.numDet ∨ env.t = [] then sliceLen r.m r.numDet else 0

theorem detectNodes_length {m : ℕ} (n : ℕ) (x : Fields m W B) (w : W) (b : B) : (detectNodes n x w b).length = sliceLen m n := by
  unfold detectNodes sliceLen
  rw [List.length_drop, List.length_ofFn]

theorem forward_shape {r : Reduced W} {env : SimEnv} {cs : List (Actor W B)} {src : ℕ → ℕ → W → B → ℝ × ℝ} {out : List (W → B → List (ℝ × ℝ))}
    (h : forwardReduced r env cs src = .ok out) :
    out.length = env.t.length ∧ ∀ (t : ℕ) f, out[t]? = some f → ∀ w b, (f w b).length = numFields r env := by
  obtain ⟨len, hb, ⟨hc, rfl⟩ | ⟨hc, hc', rfl⟩⟩ := (forward_ok_iff _ _ _ _ _).1 h
  · refine ⟨by simp [simulate_length], fun t f hf w b => ?_⟩
    rw [List.getElem?_map, Option.map_eq_some_iff] at hf
    obtain ⟨u, -, rfl⟩ := hf
    rw [detectNodes_length, numFields, if_pos hc]
  · refine ⟨by simp [simulate_length], fun t f hf w b => ?_⟩
    rw [List.getElem?_map, Option.map_eq_some_iff] at hf
    obtain ⟨u, -, rfl⟩ := hf
    rw [numFields, if_neg hc]
    rfl

theorem field_linear (p : Plant W) (env : SimEnv) (hact : ∀ i, p.act i = false) (r : Reduced W)
    (hr : initNet p env = .ok (some r)) (cs : List (Actor W B)) (x y : W → B → ℂ)
    {s₁ s₂ s₃ : ℕ → ℕ → W → B → ℝ × ℝ}
    (h : ∀ t k w b, asComplex (s₃ t k w b) = x w b * asComplex (s₁ t k w b) + y w b * asComplex (s₂ t k w b))
    {o₁ o₂ o₃ : List (W → B → List (ℝ × ℝ))} (h₁ : forwardReduced r env cs s₁ = .ok o₁)
    (h₂ : forwardReduced r env cs s₂ = .ok o₂) (h₃ : forwardReduced r env cs s₃ = .ok o₃) (t : ℕ) (w : W) (b : B) (q : ℕ) :
    heardAt o₃ t w b q = x w b * heardAt o₁ t w b q + y w b * heardAt o₂ t w b q := by
  obtain ⟨o, ho, -, -, hlin⟩ := C29_linear p env hact r hr cs x y s₁ s₂ s₃ h o₁ o₂ h₁ h₂
  rw [h₃] at ho
  cases ho
  obtain ⟨l₁, n₁⟩ := forward_shape h₁
  obtain ⟨l₂, n₂⟩ := forward_shape h₂
  obtain ⟨l₃, n₃⟩ := forward_shape h₃
  by_cases ht : t < env.t.length
  · have e₁ := List.getElem?_eq_getElem (l₁.symm ▸ ht : t < o₁.length)
    have e₂ := List.getElem?_eq_getElem (l₂.symm ▸ ht : t < o₂.length)
    have e₃ := List.getElem?_eq_getElem (l₃.symm ▸ ht : t < o₃.length)
    rw [fieldAt_some e₁, fieldAt_some e₂, fieldAt_some e₃, hlin t _ _ _ e₁ e₂ e₃ w b, List.getElem?_zipWith, List.getElem?_map, List.getElem?_map]
    have m₁ := n₁ t _ e₁ w b
    have m₂ := n₂ t _ e₂ w b
    by_cases hq : q < numFields r env
    · rw [List.getElem?_eq_getElem (m₁.symm ▸ hq : q < _), List.getElem?_eq_getElem (m₂.symm ▸ hq : q < _)]
      rfl
    · rw [List.getElem?_eq_none (by omega), List.getElem?_eq_none (by omega)]
      simp
  · unfold heardAt
    rw [List.getElem?_eq_none (by omega), List.getElem?_eq_none (by omega), List.getElem?_eq_none (by omega)]
    simp

theorem field_shift (p : Plant W) (env : SimEnv) (hact : ∀ i, p.act i = false) (r : Reduced W)
    (hr : initNet p env = .ok (some r)) (cs : List (Actor W B)) (n : ℕ) {s s' : ℕ → ℕ → W → B → ℝ × ℝ}
    (h0 : ∀ t < n, ∀ k w b, s' t k w b = (0, 0)) (hs : ∀ t, s' (t + n) = s t)
    {o o' : List (W → B → List (ℝ × ℝ))} (ho : forwardReduced r env cs s = .ok o)
    (ho' : forwardReduced r env cs s' = .ok o') (t : ℕ) (ht : t < env.t.length) (w : W) (b : B) (q : ℕ) :
    heardAt o' t w b q = if n ≤ t then heardAt o (t - n) w b q else 0 := by
  obtain ⟨hz, hd⟩ := C30_shift p env hact r hr cs n s s' h0 hs o o' ho ho'
  obtain ⟨l, -⟩ := forward_shape ho
  obtain ⟨l', -⟩ := forward_shape ho'
  split
  · rename_i hn
    have e : o'[t]? = o[t - n]? := by
      have h1 := congrArg (fun L => L[t - n]?) hd
      simp only [List.getElem?_drop, List.getElem?_take] at h1
      rw [if_pos (by omega), Nat.add_sub_cancel' hn] at h1
      exact h1
    unfold heardAt
    rw [e]
  · rename_i hn
    have e := List.getElem?_eq_getElem (l'.symm ▸ ht : t < o'.length)
    have := hz t (by omega) _ e w b
    unfold heardAt
    rw [e]
    dsimp only
    cases hq : (o'[t] w b)[q]? with
    | none => rfl
    | some u =>
      rw [this u (List.mem_of_getElem? hq)]
      rfl

theorem field_channels (p : Plant W) (env : SimEnv) (r : Reduced W) (hr : initNet p env = .ok (some r)) (cs : List (Actor W B))
    {s s' : ℕ → ℕ → W → B → ℝ × ℝ} (h : ∀ t, ∀ k < (portsWith p.src).length, s t k = s' t k) :
    forwardReduced r env cs s = forwardReduced r env cs s' := by
  have e : ∀ t, padSource r.m r.numSrc (s t) = padSource r.m r.numSrc (s' t) := by
    intro t
    have hn : r.numSrc = (portsWith p.src).length := by
      obtain ⟨-, C, -, rfl⟩ := initNet_some hr
      rfl
    unfold padSource
    congr 1 <;> funext w <;> ext k b <;> simp only [Matrix.of_apply] <;> split
    · rename_i hk; rw [h t k (hn ▸ hk)]
    · rfl
    · rename_i hk; rw [h t k (hn ▸ hk)]
    · rfl
  unfold forwardReduced
  simp only [e]

theorem asComplex_zero : asComplex (0, 0) = 0 := rfl
theorem asComplex_one : asComplex (1, 0) = 1 := rfl

theorem field_zero (p : Plant W) (env : SimEnv) (hact : ∀ i, p.act i = false) (r : Reduced W)
    (hr : initNet p env = .ok (some r)) (cs : List (Actor W B)) {s : ℕ → ℕ → W → B → ℝ × ℝ} (hs : ∀ t k w b, s t k w b = (0, 0))
    {o : List (W → B → List (ℝ × ℝ))} (h : forwardReduced r env cs s = .ok o) (t : ℕ) (w : W) (b : B) (q : ℕ) : heardAt o t w b q = 0 := by
  rw [field_linear p env hact r hr cs (fun _ _ => 0) (fun _ _ => 0) (s₁ := s) (s₂ := s) (fun t k w b => by
    rw [hs, asComplex_zero]; simp) h h h]
  simp

/-- Sources that are on in the first step only. -/
theorem flash_field (p : Plant W) (env : SimEnv) (hact : ∀ i, p.act i = false) (r : Reduced W)
    (hr : initNet p env = .ok (some r)) (cs : List (Actor W B)) (amp : ℕ → W → B → ℝ × ℝ) (K : ℕ)
    (resp : ℕ → List (W → B → List (ℝ × ℝ))) (hresp : ∀ k < K, forwardReduced r env cs (pulse k) = .ok (resp k))
    (out : List (W → B → List (ℝ × ℝ)))
    (ho : forwardReduced r env cs (fun t k w b => if t = 0 ∧ k < K then amp k w b else (0, 0)) = .ok out) (t : ℕ) (w : W) (b : B) (q : ℕ) :
    heardAt out t w b q = ∑ k ∈ Finset.range K, asComplex (amp k w b) * heardAt (resp k) t w b q := by
  induction K generalizing out with
  | zero => rw [field_zero p env hact r hr cs (fun t k w b => by simp) ho]; simp
  | succ K ih =>
    obtain ⟨o₁, ho₁⟩ := forward_ok_any r env cs cs _ (fun t k w b => if t = 0 ∧ k < K then amp k w b else (0, 0)) _ ho
    rw [field_linear p env hact r hr cs (fun _ _ => 1) (fun w b => asComplex (amp K w b)) (fun t k w b => by
      unfold pulse
      rcases lt_trichotomy k K with h | h | h
      · rw [if_neg (c := t = 0 ∧ k = K) (by omega), asComplex_zero, mul_zero, add_zero, one_mul]
        congr 1
        by_cases ht : t = 0
        · rw [if_pos ⟨ht, by omega⟩, if_pos ⟨ht, h⟩]
        · rw [if_neg (by omega), if_neg (by omega)]
      · subst h
        rw [if_neg (c := t = 0 ∧ k < k) (by omega), asComplex_zero, mul_zero, zero_add]
        by_cases ht : t = 0
        · rw [if_pos ⟨ht, by omega⟩, if_pos ⟨ht, rfl⟩, asComplex_one, mul_one]
        · rw [if_neg (by omega), if_neg (by omega), asComplex_zero, mul_zero]
      · rw [if_neg (by omega), if_neg (by omega), if_neg (by omega), asComplex_zero, mul_zero, mul_zero, add_zero]) ho₁
      (hresp K (by omega)) ho, ih (fun k hk => hresp k (by omega)) _ ho₁, Finset.sum_range_succ, one_mul]

/-- Sources that are dark from step `n` on. -/
theorem convolution_upto (p : Plant W) (env : SimEnv) (hact : ∀ i, p.act i = false) (r : Reduced W)
    (hr : initNet p env = .ok (some r)) (cs : List (Actor W B)) (src : ℕ → ℕ → W → B → ℝ × ℝ) (K : ℕ)
    (resp : ℕ → List (W → B → List (ℝ × ℝ))) (hresp : ∀ k < K, forwardReduced r env cs (pulse k) = .ok (resp k))
    (n : ℕ) (out : List (W → B → List (ℝ × ℝ)))
    (ho : forwardReduced r env cs (fun t k w b => if t < n ∧ k < K then src t k w b else (0, 0)) = .ok out) (t : ℕ) (ht : t < env.t.length)
    (w : W) (b : B) (q : ℕ) :
    heardAt out t w b q = ∑ τ ∈ Finset.range n, if τ ≤ t then
      ∑ k ∈ Finset.range K, asComplex (src τ k w b) * heardAt (resp k) (t - τ) w b q else 0 := by
  induction n generalizing out with
  | zero => rw [field_zero p env hact r hr cs (fun t k w b => by simp) ho]; simp
  | succ n ih =>
    obtain ⟨o₁, ho₁⟩ := forward_ok_any r env cs cs _ (fun t k w b => if t < n ∧ k < K then src t k w b else (0, 0)) _ ho
    obtain ⟨o₂, ho₂⟩ := forward_ok_any r env cs cs _ (fun t k w b => if t = n ∧ k < K then src t k w b else (0, 0)) _ ho
    obtain ⟨o₃, ho₃⟩ := forward_ok_any r env cs cs _ (fun t k w b => if t = 0 ∧ k < K then src n k w b else (0, 0)) _ ho
    rw [field_linear p env hact r hr cs (fun _ _ => 1) (fun _ _ => 1) (fun t k w b => by
      rw [one_mul, one_mul]
      by_cases hk : k < K
      · rcases lt_trichotomy t n with h | h | h
        · rw [if_pos ⟨by omega, hk⟩, if_pos ⟨h, hk⟩, if_neg (by omega), asComplex_zero, add_zero]
        · rw [if_pos ⟨by omega, hk⟩, if_neg (by omega), if_pos ⟨h, hk⟩, asComplex_zero, zero_add]
        · rw [if_neg (by omega), if_neg (by omega), if_neg (by omega), asComplex_zero, add_zero]
      · rw [if_neg (by omega), if_neg (by omega), if_neg (by omega), asComplex_zero, add_zero]) ho₁ ho₂ ho, ih _ ho₁,
      Finset.sum_range_succ, one_mul, one_mul,
      field_shift p env hact r hr cs n (s := fun t k w b => if t = 0 ∧ k < K then src n k w b else (0, 0)) (fun t ht k w b => by
      rw [if_neg]; rintro ⟨h, -⟩; omega) (fun t => by
      funext k w b
      by_cases h : t = 0
      · subst h; simp
      · rw [if_neg (by omega), if_neg (by omega)]) ho₃ ho₂ t ht, flash_field p env hact r hr cs (src n) K resp hresp o₃ ho₃]

/-- C114. In every network without active components, the detected fields are the convolution of the source signals with the responses to
pulses, as simulated. -/
theorem C114_convolution (p : Plant W) (env : SimEnv) (hact : ∀ i, p.act i = false) (r : Reduced W)
    (hr : initNet p env = .ok (some r)) (cs : List (Actor W B)) (src : ℕ → ℕ → W → B → ℝ × ℝ)
    (out : List (W → B → List (ℝ × ℝ))) (ho : forwardReduced r env cs src = .ok out) :
    ∃ resp : ℕ → List (W → B → List (ℝ × ℝ)), (∀ k, forwardReduced r env cs (pulse k) = .ok (resp k)) ∧
      ∀ t < env.t.length, ∀ w b q, heardAt out t w b q = ∑ τ ∈ Finset.range (t + 1), ∑ k ∈ Finset.range (portsWith p.src).length,
        asComplex (src τ k w b) * heardAt (resp k) (t - τ) w b q := by
  choose resp hresp using fun k => forward_ok_any r env cs cs src (pulse k) _ ho
  refine ⟨resp, hresp, fun t ht w b q => ?_⟩
  obtain ⟨o₁, ho₁⟩ := forward_ok_any r env cs cs src
    (fun t k w b => if t < env.t.length ∧ k < (portsWith p.src).length then src t k w b else (0, 0)) _ ho
  have hc : o₁ = out := by
    obtain ⟨dt, fd, ts⟩ := env
    obtain ⟨o₂, ho₂⟩ := forward_ok_any r ⟨dt, fd, ts⟩ cs cs src
      (fun t k w b => if t < ts.length then src t k w b else (0, 0)) _ ho
    have e := C30_causal r dt fd ts [] [] cs (fun t k w b => if t < ts.length then src t k w b else (0, 0)) src
      (fun t ht => by simp only [if_pos ht]) o₂ out (by rw [List.append_nil]; exact ho₂) (by rw [List.append_nil]; exact ho)
    rw [List.take_of_length_le (by rw [(forward_shape ho₂).1]), List.take_of_length_le (by rw [(forward_shape ho).1])] at e
    rw [field_channels p ⟨dt, fd, ts⟩ r hr cs (s' := fun t k w b => if t < ts.length then src t k w b else (0, 0)) (fun t k hk => by
      funext w b
      by_cases ht : t < ts.length
      · rw [if_pos ⟨ht, hk⟩, if_pos ht]
      · rw [if_neg (fun h => ht h.1), if_neg ht]), ho₂] at ho₁
    cases ho₁
    exact e
  subst hc
  rw [convolution_upto p env hact r hr cs src _ resp (fun k _ => hresp k) _ _ ho₁ t ht]
  refine (Finset.sum_subset (Finset.range_subset_range.mpr ht) fun τ h1 h2 => ?_).symm.trans ?_
  · rw [if_neg (by simpa using h2)]
  · exact Finset.sum_congr rfl fun τ hτ => if_pos (by simpa [Nat.lt_succ_iff] using hτ)

/-- Partial Fourier sums of the response to a pulse are the response to a modulated source. -/
theorem modulated_field (p : Plant W) (env : SimEnv) (hact : ∀ i, p.act i = false) (r : Reduced W)
    (hr : initNet p env = .ok (some r)) (cs : List (Actor W B)) (z : W → ℂ) (hz : ∀ w, ‖z w‖ = 1) (k : ℕ) (hk : k < (portsWith p.src).length)
    (out resp : List (W → B → List (ℝ × ℝ))) (ho : forwardReduced r env cs (modulated z (steady k)) = .ok out)
    (hresp : forwardReduced r env cs (pulse k) = .ok resp) (t : ℕ) (ht : t < env.t.length) (w : W) (b : B) (q : ℕ) :
    ∑ τ ∈ Finset.range (t + 1), (z w ^ τ)⁻¹ * heardAt resp τ w b q = (z w ^ t)⁻¹ * heardAt out t w b q := by
  obtain ⟨resp', hresp', hconv⟩ := C114_convolution p env hact r hr cs _ out ho
  obtain rfl : resp = resp' k := by have := hresp' k; rw [hresp] at this; cases this; rfl
  have h0 : z w ≠ 0 := by rw [← norm_ne_zero_iff, hz]; exact one_ne_zero
  rw [hconv t ht w b q, Finset.mul_sum, ← Finset.sum_range_reflect]
  refine Finset.sum_congr rfl fun τ hτ => ?_
  have hτ : τ ≤ t := by simpa [Nat.lt_succ_iff] using hτ
  rw [Finset.sum_eq_single k]
  · have e : asComplex (modulated z (steady k) τ k w b) = z w ^ τ := by
      unfold modulated steady
      rw [if_pos rfl, asComplex_one, mul_one]
      rfl
    rw [e, show t + 1 - 1 - τ = t - τ by omega, ← mul_assoc]
    congr 1
    field_simp
    rw [← pow_add]
    congr 1
    omega
  · intro j _ hj
    have e : asComplex (modulated z (steady k) τ j w b) = 0 := by
      unfold modulated steady
      rw [if_neg hj, asComplex_zero, mul_zero]
      rfl
    rw [e, zero_mul]
  · intro h
    exact absurd (Finset.mem_range.mpr hk) h

theorem fourier_close {t : ℕ} {ε : ℝ} {x : ℂ} {out : List (W → B → List (ℝ × ℝ))} {o : W → B → List (ℝ × ℝ)} {w : W} {b : B} (hε : 0 < ε)
    (hx1 : ‖x‖ = 1) (ht : t < out.length) (hclose : CloseUpTo ε x (out[t] w b) (o w b)) (q : ℕ) :
    ‖x⁻¹ * heardAt out t w b q - heardAt [o] 0 w b q‖ < ε := by
  obtain ⟨hl, hc⟩ := hclose
  have hx0 : x ≠ 0 := by rw [← norm_ne_zero_iff, hx1]; exact one_ne_zero
  rw [fieldAt_some (List.getElem?_eq_getElem ht), fieldAt_some (f := o) rfl, List.getElem?_map, List.getElem?_map]
  have e : ∀ y y' : ℂ, ‖x⁻¹ * y - y'‖ = ‖y - x * y'‖ := by
    intro y y'
    have : y - x * y' = x * (x⁻¹ * y - y') := by rw [mul_sub, mul_inv_cancel_left₀ hx0]
    rw [this, norm_mul, hx1, one_mul]
  rw [e]
  cases h1 : (out[t] w b)[q]? with
  | none =>
    have : (o w b)[q]? = none := by
      rw [List.getElem?_eq_none_iff] at h1 ⊢
      omega
    rw [this]
    simpa using hε
  | some y =>
    have : q < (o w b).length := by
      rw [← hl]
      exact (List.getElem?_eq_some_iff.mp h1).1
    rw [List.getElem?_eq_getElem this]
    exact hc q y _ h1 (List.getElem?_eq_getElem this)

/-- C114. In a circuit of passive components whose dispersion is that of their delay, the delays being multiples of the time step, one
simulation of a pulse gives the whole spectrum: the Fourier sums of the response converge to the response in the frequency domain, at every
wavelength. -/
theorem C114_spectrum (d : Dev) (v : ℝ) (hv : v ≠ 0) (dt : ℝ) (hpos : 0 < dt)
    (hM : MadeOf (fun p => (∀ wl, Contracts (scattering p wl)) ∧ Dispersive p ∧ ∃ n : ℕ, p.delay v = n * dt) d)
    (ht : d.comp.terminated = true) (wl wl' : W → ℝ) (hwl : ∀ w, wl w ≠ 0 ∧ wl' w ≠ 0)
    (hd : portsWith (d.plant v wl).det ≠ [])
    (hdamp : ∀ w, Damped (cx (d.plant v wl).C 0) (cx ((d.plant v wl).rS w) ((d.plant v wl).iS w)) (circuitDelay d v wl dt))
    (fenv : SimEnv) (hf : fenv.freqdomain = true) (ht1 : fenv.t.length = 1) (cs' : List (Actor W B)) (k : ℕ)
    (hk : k < (portsWith (d.plant v wl).src).length) :
    ∃ r' o, initNet (d.plant v wl') fenv = .ok (some r') ∧ forwardReduced r' fenv cs' (fun _ => steady k) = .ok [o] ∧ ∀ w b ε, 0 < ε →
      ∃ N, ∀ (ts : List ℝ) (r : Reduced W) (cs : List (Actor W B)), initNet (d.plant v wl) ⟨some dt, false, ts⟩ = .ok (some r) →
        ∃ resp, forwardReduced r ⟨some dt, false, ts⟩ cs (pulse k) = .ok resp ∧ resp.length = ts.length ∧
          ∀ n, N ≤ n → n ≤ ts.length → ∀ q,
            ‖∑ τ ∈ Finset.range n, (detuning v (wl w) (wl' w) dt ^ τ)⁻¹ * heardAt resp τ w b q - heardAt [o] 0 w b q‖ < ε := by
  obtain ⟨r', o, hr', ho, hconv⟩ := C83_modulated d v hv dt hpos hM ht wl wl' hwl hd hdamp fenv hf ht1 cs' (steady k)
  refine ⟨r', o, hr', ho, fun w b ε hε => ?_⟩
  obtain ⟨N, hN⟩ := hconv w b ε hε
  obtain ⟨-, L, hP, hL⟩ := madeOf_flat hM
  refine ⟨N + 1, fun ts r cs hr => ?_⟩
  obtain ⟨out, hout, hlen, hclose⟩ := hN ts r cs hr
  obtain ⟨resp, hresp⟩ := forward_ok_any r ⟨some dt, false, ts⟩ cs cs _ (pulse k) _ hout
  refine ⟨resp, hresp, (forward_shape hresp).1, fun n hn hn' q => ?_⟩
  obtain ⟨t, rfl⟩ : ∃ t, n = t + 1 := ⟨n - 1, by omega⟩
  have hz : ∀ w, ‖detuning v (wl w) (wl' w) dt‖ = 1 := fun w => Complex.norm_exp_ofReal_mul_I _
  rw [modulated_field (d.plant v wl) ⟨some dt, false, ts⟩ (plant_act hL v wl) r hr cs _ hz k hk out resp hout hresp t (by exact hn') w b q]
  exact fourier_close hε (by rw [norm_pow, hz, one_pow]) (by omega) (hclose t (by omega) (by omega)) q

/-! ## Examples -/

/-- The demo network, any source. -/
example (src : ℕ → ℕ → Unit → Unit → ℝ × ℝ) : ∃ r out, ∃ resp : ℕ → _, initNet (demo 2) demoTime = .ok (some r) ∧
    forwardReduced r demoTime [] src = .ok out ∧ (∀ k, forwardReduced r demoTime [] (pulse k) = .ok (resp k)) ∧
    heardAt out 1 () () 0 = asComplex (src 0 0 () ()) * heardAt (resp 0) 1 () () 0 + asComplex (src 1 0 () ()) * heardAt (resp 0) 0 () () 0 := by
  obtain ⟨r, hr⟩ := demo_init 2 demoTime
  obtain ⟨out, ho, -⟩ := C26_time_domain (demo 2) demoTime 1 rfl one_pos rfl (demo_exclusive 2)
    (fun _ => rfl) (demo_det_ne 2) (demoDelay 2) (demo_delay 2) (demo_mix 2) r hr [] src
  obtain ⟨resp, h1, h2⟩ := C114_convolution (demo 2) demoTime (fun _ => rfl) r hr [] src out ho
  refine ⟨r, out, resp, hr, ho, h1, ?_⟩
  have hn : (portsWith (demo 2).src).length = 1 := rfl
  rw [h2 1 (by decide), hn]
  simp [Finset.sum_range_succ]

/-- The spectrum of the ring with loss of C83, from the simulation of one pulse. -/
example (wl wl' : W → ℝ) (hwl : ∀ w, wl w ≠ 0 ∧ wl' w ≠ 0) :
    ∃ (d : Dev) (r' : Reduced W) (o : W → B → List (ℝ × ℝ)), initNet (d.plant 3e8 wl') ⟨none, true, [0]⟩ = .ok (some r') ∧
      forwardReduced r' ⟨none, true, [0]⟩ [] (fun _ => steady 0) = .ok [o] ∧ ∀ w b ε, 0 < ε → ∃ N, ∀ ts, ∃ r resp,
        initNet (d.plant 3e8 wl) ⟨some 1e-13, false, ts⟩ = .ok (some r) ∧
        forwardReduced r ⟨some 1e-13, false, ts⟩ [] (pulse 0) = .ok resp ∧ ∀ n, N ≤ n → n ≤ ts.length → ∀ q,
          ‖∑ τ ∈ Finset.range n, (detuning 3e8 (wl w) (wl' w) 1e-13 ^ τ)⁻¹ * heardAt resp τ w b q - heardAt [o] 0 w b q‖ < ε := by
  obtain ⟨d, hd, hn, h0, h5, ht, hC, h6, h7⟩ := exRing_dev
  have c1 : ∀ wl, Contracts (scattering .source wl) := C65_contracts_partial .source trivial (by simp)
  have c2 : ∀ wl, Contracts (scattering .detector wl) := C65_contracts_partial .detector trivial (by simp)
  have c3 : ∀ wl, Contracts (scattering (.coupler 0.3) wl) := C65_contracts_partial _ (by constructor <;> norm_num) (by simp)
  have c4 : ∀ wl, Contracts (scattering exRingWg wl) := C65_contracts_partial exRingWg (by constructor <;> norm_num) (by simp [exRingWg])
  have hM := exRing_made (fun p => (∀ wl, Contracts (scattering p wl)) ∧ (p.delay 3e8 ≠ 0 → Absorbs p))
    ⟨c1, fun h => absurd rfl h⟩ ⟨c2, fun h => absurd rfl h⟩ ⟨c3, fun h => absurd rfl h⟩
    ⟨c4, fun _ => waveguide_absorbs _ _ _ _ _ _ (by norm_num)⟩ d hd
  have hinit := exRing_init d (madeOf_flat hM).1 ht hn h0 h5 hC h6 h7 wl
  have hM2 := exRing_made (fun p => (∀ wl, Contracts (scattering p wl)) ∧ Dispersive p ∧ ∃ n : ℕ, p.delay 3e8 = n * 1e-13)
    ⟨c1, dispersive_constant _ (fun _ _ => rfl) (fun _ => rfl), 0, by simp [Part.delay]⟩
    ⟨c2, dispersive_constant _ (fun _ _ => rfl) (fun _ => rfl), 0, by simp [Part.delay]⟩
    ⟨c3, dispersive_constant _ (fun _ _ => rfl) (fun _ => rfl), 0, by simp [Part.delay]⟩
    ⟨c4, C81_waveguide_partial _ _ _ _ _ _ (by norm_num), 10, by
      show lengthDelay 3 1e-4 3e8 = _
      unfold lengthDelay
      norm_num⟩ d hd
  have hdet : portsWith (d.plant 3e8 wl).det ≠ [] := by
    have hm : (⟨5, by rw [hn]; omega⟩ : Fin d.comp.n) ∈ portsWith (d.plant 3e8 wl).det := by
      simp only [portsWith, List.mem_filter, List.mem_finRange, true_and]
      exact h5
    intro h0
    rw [h0] at hm
    cases hm
  have hsrc : 0 < (portsWith (d.plant 3e8 wl).src).length := by
    have hm : (⟨0, by rw [hn]; omega⟩ : Fin d.comp.n) ∈ portsWith (d.plant 3e8 wl).src := by
      simp only [portsWith, List.mem_filter, List.mem_finRange, true_and]
      exact h0
    exact List.length_pos_of_mem hm
  obtain ⟨r0, hr0⟩ := hinit []
  obtain ⟨r', o, h1, h2, h3⟩ := C114_spectrum (B := B) d 3e8 (by norm_num) 1e-13 (by norm_num) hM2 ht wl wl' hwl hdet
    (fun w => C82_lossy d 3e8 hM ht wl 1e-13 [] r0 hr0 w) ⟨none, true, [0]⟩ rfl rfl [] 0 hsrc
  refine ⟨d, r', o, h1, h2, fun w b ε hε => ?_⟩
  obtain ⟨N, hN⟩ := h3 w b ε hε
  refine ⟨N, fun ts => ?_⟩
  obtain ⟨r, hr⟩ := hinit ts
  obtain ⟨out, k1, -, k2⟩ := hN ts r [] hr
  exact ⟨r, out, hr, k1, k2⟩

end PT
