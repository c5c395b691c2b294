import Verif.Props.Undamped

/-!
# C142: when simulations in the time domain approach the result of the frequency domain
-/

namespace PT
open Spec Matrix

variable {W B : Type}

/-- The single detector of circuit `d` sees something that satisfies `P` at every step from some step on, however long the simulation
is, when the source is constant. -/
def Spec.Eventually (d : Dev) (v : ℝ) (wl : W → ℝ) (dt : ℝ) (amp : ℕ → W → B → ℝ × ℝ) (w : W) (b : B) (P : ℂ → Prop) : Prop :=
  ∃ N, ∀ (ts : List ℝ) (cs : List (Actor W B)), ∃ (r : Reduced W) (out : List (W → B → List (ℝ × ℝ))),
    initNet (d.plant v wl) ⟨some dt, false, ts⟩ = .ok (some r) ∧
    forwardReduced r ⟨some dt, false, ts⟩ cs (fun _ => amp) = .ok out ∧ out.length = ts.length ∧
      ∀ t (h : t < out.length), N ≤ t → ∃ q, out[t] w b = [q] ∧ P (asComplex q)

/-- The full statement: with constant sources, the detected fields of every terminated circuit approach the result of the frequency
domain, if the circuit can be initialized there. -/
def C142_statement : Prop := ∀ (d : Dev), MadeOf (fun p => ∀ v, 0 ≤ v → 0 ≤ p.delay v) d → d.comp.terminated = true →
  ∀ (v dt : ℝ) (wl : Unit → ℝ), 0 < v → 0 < dt → portsWith (d.plant v wl).det ≠ [] → ∀ (r' : Reduced Unit),
  initNet (d.plant v wl) ⟨none, true, [0]⟩ = .ok (some r') → ∀ (amp : ℕ → Unit → Unit → ℝ × ℝ) o,
  forwardReduced r' ⟨none, true, [0]⟩ [] (fun _ => amp) = .ok [o] → ∀ ε, 0 < ε → ∃ N, ∀ ts : List ℝ, ∀ r out,
    initNet (d.plant v wl) ⟨some dt, false, ts⟩ = .ok (some r) →
    forwardReduced r ⟨some dt, false, ts⟩ [] (fun _ => amp) = .ok out →
      ∀ t (h : t < out.length), N ≤ t → CloseUpTo ε 1 (out[t] () ()) (o () ())

theorem round_trip_sum (τ z c : ℂ) (n d0 D : ℕ) (hD : 0 < D) (hn : d0 ≤ n) :
    ∑ j ∈ Finset.range n, τ ^ j * z ^ (j + 1) * past (fun _ => c) n (d0 + (j + 1) * D) =
      c * z * ∑ j ∈ Finset.range ((n - d0) / D), (τ * z) ^ j := by
  have h1 : ∀ j, d0 + (j + 1) * D ≤ n ↔ j < (n - d0) / D := by
    intro j
    rw [← Nat.succ_le_iff, Nat.le_div_iff_mul_le hD]
    show _ ↔ (j + 1) * D ≤ n - d0
    omega
  have h2 : (n - d0) / D ≤ n := (Nat.div_le_self _ _).trans (Nat.sub_le _ _)
  rw [Finset.mul_sum, ← Finset.sum_subset (Finset.range_mono h2)]
  · refine Finset.sum_congr rfl fun j hj => ?_
    unfold past
    rw [if_pos ((h1 j).mpr (Finset.mem_range.mp hj)), mul_pow]
    ring
  · intro j _ hj
    unfold past
    rw [if_neg (fun h => hj (Finset.mem_range.mpr ((h1 j).mp h))), mul_zero]

/-- What a ring on a bus sends to the detector after `m` round trips, for light of amplitude one. -/
theorem ring_transient {k : ℝ} (hk : k ≤ 1) (z : ℂ) (hne : √(1 - k) * z ≠ 1) (m : ℕ) :
    √(1 - k) - k * (z * ∑ j ∈ Finset.range m, (√(1 - k) * z) ^ j) =
      (√(1 - k) - z) / (1 - √(1 - k) * z) + k * z / (1 - √(1 - k) * z) * (√(1 - k) * z) ^ m := by
  have hs : (√(1 - k) : ℂ) * √(1 - k) = 1 - k := by
    rw [← Complex.ofReal_mul, Real.mul_self_sqrt (by linarith)]
    push_cast; ring
  have h1 : (√(1 - k) : ℂ) * z - 1 ≠ 0 := sub_ne_zero.mpr hne
  have h2 : 1 - (√(1 - k) : ℂ) * z ≠ 0 := sub_ne_zero.mpr (Ne.symm hne)
  rw [geom_sum_eq hne]
  generalize (√(1 - k) * z) ^ m = p
  field_simp
  have h3 : (√(1 - k) : ℂ) * z - 1 = -(1 - √(1 - k) * z) := by ring
  rw [h3]
  field_simp
  linear_combination z * hs

theorem amp_ne_zero (g : Wg) (wl : ℝ) : g.amp wl ≠ 0 := by
  rw [← norm_ne_zero_iff, wg_norm]
  positivity

/-- C142. The ring on a bus with a constant source, with any loss or gain: after the light has arrived, the detected amplitude is
that of the frequency domain plus a term which is multiplied by the same factor at every round trip. -/
theorem C142_transient (k : ℝ) (hk : 0 ≤ k ∧ k ≤ 1) (x y z : Wg) :
    ∃ d, LinkedNet (allPassModules k x y z) allPassLinks d ∧ ∀ (W B : Type) (v : ℝ) (wl : W → ℝ) (dt : ℝ) (ts : List ℝ),
      0 < dt → 0 < z.steps v dt →
      ∃ r, initNet (d.plant v wl) ⟨some dt, false, ts⟩ = .ok (some r) ∧
        ∀ (cs : List (Actor W B)) (amp : ℕ → W → B → ℝ × ℝ), ∃ out,
          forwardReduced r ⟨some dt, false, ts⟩ cs (fun _ => amp) = .ok out ∧ out.length = ts.length ∧
          ∀ n (hn : n < out.length) w b, x.steps v dt + y.steps v dt ≤ n → √(1 - k) * z.amp (wl w) ≠ 1 →
            ∃ q, out[n] w b = [q] ∧ asComplex q = x.amp (wl w) * y.amp (wl w) *
              ((√(1 - k) - z.amp (wl w)) / (1 - √(1 - k) * z.amp (wl w)) +
                k * z.amp (wl w) / (1 - √(1 - k) * z.amp (wl w)) *
                  (√(1 - k) * z.amp (wl w)) ^ ((n - (x.steps v dt + y.steps v dt)) / z.steps v dt)) * asComplex (amp 0 w b) := by
  obtain ⟨d, hd, H⟩ := C89_round_trips k hk x y z
  refine ⟨d, hd, fun W B v wl dt ts hpos hD => ?_⟩
  obtain ⟨r, hr, h⟩ := H W B v wl ⟨some dt, false, ts⟩ dt rfl rfl hpos hD
  refine ⟨r, hr, fun cs amp => ?_⟩
  obtain ⟨out, h1, h2, h3⟩ := h cs (fun _ => amp)
  refine ⟨out, h1, h2, fun n hn w b hle hne => ?_⟩
  have h4 := h3 n hn w b
  obtain ⟨q, hq⟩ : ∃ q, out[n] w b = [q] := List.length_eq_one_iff.1 (by rw [← List.length_map asComplex, h4, List.length_singleton])
  refine ⟨q, hq, ?_⟩
  rw [hq] at h4
  have h5 := (List.cons.inj h4).1
  rw [h5, round_trip_sum _ _ _ _ _ _ hD hle, ← ring_transient hk.2 _ hne]
  unfold past
  rw [if_pos hle]
  ring

/-- The part of the detected amplitude that changes from round trip to round trip. -/
noncomputable def Spec.ringing (k : ℝ) (x y z : Wg) (wl : ℝ) (c : ℂ) : ℂ :=
  x.amp wl * y.amp wl * (k * z.amp wl / (1 - √(1 - k) * z.amp wl)) * c

theorem ringing_ne {k : ℝ} (hk : k ≠ 0) (x y z : Wg) (wl : ℝ) {c : ℂ} (hc : c ≠ 0) (hne : √(1 - k) * z.amp wl ≠ 1) :
    ringing k x y z wl c ≠ 0 := by
  unfold ringing
  have h1 := amp_ne_zero x wl
  have h2 := amp_ne_zero y wl
  have h3 := amp_ne_zero z wl
  have h4 : (k : ℂ) ≠ 0 := Complex.ofReal_ne_zero.mpr hk
  have h5 : 1 - (√(1 - k) : ℂ) * z.amp wl ≠ 0 := sub_ne_zero.mpr (Ne.symm hne)
  positivity

theorem ring_eventually (k : ℝ) (hk : 0 ≤ k ∧ k ≤ 1) (x y z : Wg) :
    ∃ d, LinkedNet (allPassModules k x y z) allPassLinks d ∧ ∀ (W B : Type) (v : ℝ) (wl : W → ℝ) (dt : ℝ),
      0 < dt → 0 < z.steps v dt → ∀ (amp : ℕ → W → B → ℝ × ℝ) w b, √(1 - k) * z.amp (wl w) ≠ 1 → ∀ P : ℂ → Prop,
      (Eventually d v wl dt amp w b P ↔ ∃ M, ∀ m, M ≤ m → P (x.amp (wl w) * y.amp (wl w) * ((√(1 - k) - z.amp (wl w)) /
        (1 - √(1 - k) * z.amp (wl w))) * asComplex (amp 0 w b) +
          ringing k x y z (wl w) (asComplex (amp 0 w b)) * (√(1 - k) * z.amp (wl w)) ^ m)) := by
  obtain ⟨d, hd, H⟩ := C142_transient k hk x y z
  refine ⟨d, hd, fun W B v wl dt hpos hD amp w b hne P => ?_⟩
  set d0 := x.steps v dt + y.steps v dt with hd0
  set D := z.steps v dt with hDdef
  have hval : ∀ m : ℕ, x.amp (wl w) * y.amp (wl w) *
      ((√(1 - k) - z.amp (wl w)) / (1 - √(1 - k) * z.amp (wl w)) +
        k * z.amp (wl w) / (1 - √(1 - k) * z.amp (wl w)) * (√(1 - k) * z.amp (wl w)) ^ m) * asComplex (amp 0 w b) =
      x.amp (wl w) * y.amp (wl w) * ((√(1 - k) - z.amp (wl w)) / (1 - √(1 - k) * z.amp (wl w))) * asComplex (amp 0 w b) +
        ringing k x y z (wl w) (asComplex (amp 0 w b)) * (√(1 - k) * z.amp (wl w)) ^ m := by
    intro m
    unfold ringing
    ring
  constructor
  · rintro ⟨N, hN⟩
    refine ⟨N, fun m hm => ?_⟩
    obtain ⟨r, hr, h⟩ := H W B v wl dt (List.replicate (d0 + m * D + 1) 0) hpos hD
    obtain ⟨out, h1, h2, h3⟩ := h [] amp
    obtain ⟨r', out', g1, g2, g3, g4⟩ := hN (List.replicate (d0 + m * D + 1) 0) []
    rw [hr] at g1
    cases g1
    rw [h1] at g2
    cases g2
    rw [List.length_replicate] at h2
    have hmD : m ≤ m * D := Nat.le_mul_of_pos_right m hD
    obtain ⟨q, hq, hPq⟩ := g4 (d0 + m * D) (by omega) (by omega)
    obtain ⟨q', hq', he⟩ := h3 (d0 + m * D) (by omega) w b (by omega) hne
    rw [hq] at hq'
    obtain rfl := (List.cons.inj hq').1
    rw [he, hval, Nat.add_sub_cancel_left, Nat.mul_div_cancel _ hD] at hPq
    exact hPq
  · rintro ⟨M, hM⟩
    refine ⟨d0 + M * D, fun ts cs => ?_⟩
    obtain ⟨r, hr, h⟩ := H W B v wl dt ts hpos hD
    obtain ⟨out, h1, h2, h3⟩ := h cs amp
    refine ⟨r, out, hr, h1, h2, fun t ht hNt => ?_⟩
    obtain ⟨q, hq, he⟩ := h3 t ht w b (by omega) hne
    refine ⟨q, hq, ?_⟩
    rw [he, hval]
    refine hM _ ?_
    rw [Nat.le_div_iff_mul_le hD]
    omega

/-- C142, exactly when it holds for the ring on a bus, with any loss or gain, off resonance: the detected amplitude approaches the
result of the frequency domain if and only if less than all light is left after a round trip, or no light enters the ring. -/
theorem C142_ring_iff_partial (k : ℝ) (hk : 0 ≤ k ∧ k ≤ 1) (x y z : Wg) :
    ∃ d, LinkedNet (allPassModules k x y z) allPassLinks d ∧ ∀ (W B : Type) (v : ℝ) (wl : W → ℝ) (dt : ℝ),
      0 < dt → 0 < z.steps v dt → ∀ (amp : ℕ → W → B → ℝ × ℝ) w b, √(1 - k) * z.amp (wl w) ≠ 1 →
      ((∀ ε, 0 < ε → Eventually d v wl dt amp w b fun u => ‖u - x.amp (wl w) * y.amp (wl w) * ((√(1 - k) - z.amp (wl w)) /
        (1 - √(1 - k) * z.amp (wl w))) * asComplex (amp 0 w b)‖ < ε) ↔
        √(1 - k) * ‖z.amp (wl w)‖ < 1 ∨ k = 0 ∨ asComplex (amp 0 w b) = 0) := by
  obtain ⟨d, hd, H⟩ := ring_eventually k hk x y z
  refine ⟨d, hd, fun W B v wl dt hpos hD amp w b hne => ?_⟩
  have hn : ‖(√(1 - k) : ℂ) * z.amp (wl w)‖ = √(1 - k) * ‖z.amp (wl w)‖ := by
    rw [norm_mul, Complex.norm_real, Real.norm_eq_abs, abs_of_nonneg (Real.sqrt_nonneg _)]
  rw [← hn]
  simp only [H W B v wl dt hpos hD amp w b hne, add_sub_cancel_left, norm_mul, norm_pow]
  constructor
  · intro h
    by_contra hcon
    push Not at hcon
    obtain ⟨h1, h2, h3⟩ := hcon
    have hK := norm_pos_iff.mpr (ringing_ne h2 x y z (wl w) h3 hne)
    obtain ⟨M, hM⟩ := h _ hK
    have := hM M le_rfl
    have h4 : 1 ≤ (‖(√(1 - k) : ℂ)‖ * ‖z.amp (wl w)‖) ^ M := one_le_pow₀ h1
    nlinarith
  · intro h ε hε
    rcases h with h | h
    · have h0 : 0 ≤ ‖(√(1 - k) : ℂ)‖ * ‖z.amp (wl w)‖ := by positivity
      have hlim := (tendsto_pow_atTop_nhds_zero_of_lt_one h0 h).const_mul ‖ringing k x y z (wl w) (asComplex (amp 0 w b))‖
      rw [mul_zero] at hlim
      obtain ⟨M, hM⟩ := Filter.eventually_atTop.mp (hlim.eventually (gt_mem_nhds hε))
      exact ⟨M, fun m hm => hM m hm⟩
    · refine ⟨0, fun m _ => ?_⟩
      have : ringing k x y z (wl w) (asComplex (amp 0 w b)) = 0 := by
        unfold ringing
        rcases h with h | h
        · rw [h]; simp
        · rw [h, mul_zero]
      rw [this, norm_zero, zero_mul]
      exact hε

/-- C142. Above the threshold the detected amplitude exceeds every bound (although the frequency domain gives a result). -/
theorem C142_grows (k : ℝ) (hk : 0 < k ∧ k ≤ 1) (x y z : Wg) :
    ∃ d, LinkedNet (allPassModules k x y z) allPassLinks d ∧ ∀ (W B : Type) (v : ℝ) (wl : W → ℝ) (dt : ℝ),
      0 < dt → 0 < z.steps v dt → ∀ (amp : ℕ → W → B → ℝ × ℝ) w b, asComplex (amp 0 w b) ≠ 0 → 1 < √(1 - k) * ‖z.amp (wl w)‖ →
      ∀ bound : ℝ, Eventually d v wl dt amp w b fun u => bound < ‖u‖ := by
  obtain ⟨d, hd, H⟩ := ring_eventually k ⟨hk.1.le, hk.2⟩ x y z
  refine ⟨d, hd, fun W B v wl dt hpos hD amp w b hc hr bound => ?_⟩
  have hn : ‖(√(1 - k) : ℂ) * z.amp (wl w)‖ = √(1 - k) * ‖z.amp (wl w)‖ := by
    rw [norm_mul, Complex.norm_real, Real.norm_eq_abs, abs_of_nonneg (Real.sqrt_nonneg _)]
  have hne : (√(1 - k) : ℂ) * z.amp (wl w) ≠ 1 := by
    intro h
    rw [h, norm_one] at hn
    linarith
  rw [H W B v wl dt hpos hD amp w b hne]
  have hK := norm_pos_iff.mpr (ringing_ne hk.1.ne' x y z (wl w) hc hne)
  generalize ringing k x y z (wl w) (asComplex (amp 0 w b)) = K at hK ⊢
  generalize x.amp (wl w) * y.amp (wl w) * ((√(1 - k) - z.amp (wl w)) / (1 - √(1 - k) * z.amp (wl w))) * asComplex (amp 0 w b) = f
  rw [← hn] at hr
  generalize (√(1 - k) : ℂ) * z.amp (wl w) = ρ at hr
  have hlim := (tendsto_pow_atTop_atTop_of_one_lt hr).const_mul_atTop hK
  obtain ⟨M, hM⟩ := Filter.eventually_atTop.mp (hlim.eventually (Filter.eventually_gt_atTop (bound + ‖f‖)))
  refine ⟨M, fun m hm => ?_⟩
  have h1 := hM m hm
  have h2 : ‖K * ρ ^ m‖ ≤ ‖f + K * ρ ^ m‖ + ‖f‖ := by
    have := norm_sub_le (f + K * ρ ^ m) f
    rwa [add_sub_cancel_left] at this
  rw [norm_mul, norm_pow] at h2
  linarith

/-- A ring of 10 µm with a gain of 20 dB per round trip. -/
noncomputable def laserRing : Wg := ⟨1e-5, -2e6, 2, 1.55e-6, 2, 0⟩

theorem laserRing_norm (wl : ℝ) : ‖laserRing.amp wl‖ = 10 := by
  rw [wg_norm]
  unfold laserRing
  norm_num

theorem laserRing_steps : laserRing.steps 1 2e-5 = 1 := by
  unfold Wg.steps laserRing
  have : ⌊(2 * 1e-5 / 1 / 2e-5 + 1 / 2 : ℝ)⌋ = 1 := by
    rw [Int.floor_eq_iff]
    constructor <;> norm_num
  rw [this]
  rfl

theorem laser_coupler : √(1 - 3 / 4 : ℝ) = 1 / 2 := by
  rw [show (1 - 3 / 4 : ℝ) = (1 / 2) ^ 2 by norm_num]
  exact Real.sqrt_sq (by norm_num)

/-- C142 is violated: a ring with gain, above the threshold. The frequency domain gives a finite result for it. -/
theorem C142_violation : ¬ C142_statement := by
  intro H
  obtain ⟨d, hd, hf⟩ := C89_all_pass (3 / 4) (by norm_num) quietRing quietRing laserRing
  obtain ⟨d', hd', hg⟩ := C142_grows (3 / 4) (by norm_num) quietRing quietRing laserRing
  obtain rfl : d = d' := by
    have h1 := hd.2
    rw [hd'.2] at h1
    cases h1
    rfl
  have hlarge : ∀ wl, (1 : ℝ) < √(1 - 3 / 4) * ‖laserRing.amp wl‖ := by
    intro wl
    rw [laserRing_norm, laser_coupler]
    norm_num
  have hne : ∀ wl, (√(1 - 3 / 4 : ℝ) : ℂ) * laserRing.amp wl ≠ 1 := by
    intro wl h
    have := congrArg norm h
    rw [norm_mul, Complex.norm_real, Real.norm_eq_abs, abs_of_nonneg (Real.sqrt_nonneg _), norm_one] at this
    linarith [hlarge wl]
  obtain ⟨r', hr', hfr⟩ := (hf Unit Unit 1 (fun _ => 1.55e-6) ⟨none, true, [0]⟩ rfl rfl).1 fun _ => hne _
  obtain ⟨o, ho, hval⟩ := hfr [] (fun _ _ _ _ => (1, 0))
  obtain ⟨ht, hdet, -⟩ := allPass_det (3 / 4) quietRing quietRing laserRing d hd 1 (fun _ : Unit => 1.55e-6)
  have hdel : ∀ g : Wg, 0 ≤ g.ng * g.length → ∀ v, 0 ≤ v → 0 ≤ g.part.delay v := by
    intro g h v hv
    unfold Wg.part Part.delay
    exact div_nonneg h hv
  have hM : MadeOf (fun p => ∀ v, 0 ≤ v → 0 ≤ p.delay v) d := by
    refine allPass_made _ (3 / 4) quietRing quietRing laserRing ?_ ?_ ?_ ?_ ?_ ?_ d hd
    · intro v _; exact le_rfl
    · intro v _; exact le_rfl
    · intro v _; exact le_rfl
    · exact hdel _ (by norm_num [quietRing])
    · exact hdel _ (by norm_num [quietRing])
    · exact hdel _ (by norm_num [laserRing])
  obtain ⟨y', hy'⟩ : ∃ y', o () () = [y'] :=
    List.length_eq_one_iff.1 (by rw [← List.length_map asComplex, hval, List.length_singleton])
  obtain ⟨N, hN⟩ := H d hM ht 1 2e-5 (fun _ => 1.55e-6) one_pos (by norm_num) hdet r' hr' (fun _ _ _ => (1, 0)) o ho 1 one_pos
  obtain ⟨N', hN'⟩ := hg Unit Unit 1 (fun _ => 1.55e-6) 2e-5 (by norm_num) (by rw [laserRing_steps]; exact one_pos)
    (fun _ _ _ => (1, 0)) () () (fun h => by
      have := congrArg Complex.re h
      exact one_ne_zero this) (hlarge _) (‖asComplex y'‖ + 1)
  obtain ⟨r, out, h1, h2, h3, h4⟩ := hN' (List.replicate (N + N' + 1) 0) []
  rw [List.length_replicate] at h3
  obtain ⟨q, hq, hbig⟩ := h4 (N + N') (by omega) (by omega)
  obtain ⟨-, hclose⟩ := hN _ r out h1 h2 (N + N') (by omega) (by omega)
  have := hclose 0 q y' (by rw [hq]; rfl) (by rw [hy']; rfl)
  rw [one_mul] at this
  have h5 : ‖asComplex q‖ ≤ ‖asComplex q - asComplex y'‖ + ‖asComplex y'‖ := by
    have := norm_add_le (asComplex q - asComplex y') (asComplex y')
    rwa [sub_add_cancel] at this
  linarith

/-- Not vacuous: coupled out more strongly, the same ring is below the threshold. -/
example : √(1 - 0.995 : ℝ) * ‖laserRing.amp 1.55e-6‖ < 1 := by
  rw [laserRing_norm]
  have : √(1 - 0.995 : ℝ) < 0.1 := by
    rw [Real.sqrt_lt' (by norm_num)]
    norm_num
  linarith

end PT
