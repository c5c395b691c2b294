import Verif.Props.Transmission
import Mathlib.Probability.Moments.SubGaussian

/-!
# C128: the bit error rate of noisy detectors
-/

namespace PT
open Spec Finset MeasureTheory ProbabilityTheory

namespace Spec

/-- The currents that are taken for the wrong bit. -/
def wrongSide (threshold : ℝ) (bit : Bool) : Set ℝ := if bit then Set.Iic threshold else Set.Ioi threshold

end Spec

theorem wrongSide_measurable (θ : ℝ) (b : Bool) : MeasurableSet (wrongSide θ b) := by
  unfold wrongSide
  split
  · exact measurableSet_Iic
  · exact measurableSet_Ioi

theorem gauss_sub (μ v : ℝ) (u : NNReal) (hu : u ≤ v) : HasSubgaussianMGF (fun x => x - μ) v.toNNReal (gaussianReal μ u) := by
  have hm : (gaussianReal μ u).map (fun x => x - μ) = gaussianReal 0 u := by
    rw [gaussianReal_map_sub_const, sub_self]
  constructor
  · intro t
    rw [← mgf_pos_iff, mgf_gaussianReal hm]
    exact Real.exp_pos _
  · intro t
    rw [mgf_gaussianReal hm]
    apply Real.exp_le_exp.2
    have : (u : ℝ) ≤ (v.toNNReal : ℝ) := hu.trans (Real.le_coe_toNNReal v)
    have := mul_le_mul_of_nonneg_right this (sq_nonneg t)
    linarith

/-- The tails of a normal distribution. -/
theorem gauss_tails (μ v δ : ℝ) (u : NNReal) (hu : u ≤ v) (hδ : 0 ≤ δ) :
    (gaussianReal μ u).real {x | δ ≤ x - μ} ≤ Real.exp (-δ ^ 2 / (2 * v)) ∧
      (gaussianReal μ u).real {x | δ ≤ -(x - μ)} ≤ Real.exp (-δ ^ 2 / (2 * v)) := by
  have hv : (v.toNNReal : ℝ) = v := Real.coe_toNNReal _ (u.2.trans hu)
  have h := gauss_sub μ v u hu
  have h1 := h.measure_ge_le hδ
  have h2 := h.neg.measure_ge_le hδ
  rw [hv] at h1 h2
  exact ⟨h1, h2⟩

/-- The probability to be on the wrong side of a threshold that is at least `δ` away. -/
theorem wrong_le (μ v δ θ : ℝ) (u : NNReal) (hu : u ≤ v) (hδ : 0 ≤ δ) (b : Bool) (h : if b then θ + δ ≤ μ else μ + δ ≤ θ) :
    (gaussianReal μ u).real (wrongSide θ b) ≤ Real.exp (-δ ^ 2 / (2 * v)) := by
  obtain ⟨h1, h2⟩ := gauss_tails μ v δ u hu hδ
  cases b with
  | true =>
    refine le_trans (measureReal_mono ?_) h2
    intro x hx
    have : x ≤ θ := hx
    have h : θ + δ ≤ μ := h
    show δ ≤ -(x - μ)
    linarith
  | false =>
    refine le_trans (measureReal_mono ?_) h1
    intro x hx
    have : θ < x := hx
    have h : μ + δ ≤ θ := h
    show δ ≤ x - μ
    linarith

/-- **C128**. The expected bit error rate of a photodetector: the mean of the probabilities that a normal variable is on the wrong side of the
threshold.  Its mean is the current of a low-pass detector, its variance that of C120. -/
theorem C128_expected (N : ℕ) (hN : 0 < N) (m B : ℕ) (hm : 0 < m) (hB : 0 < B) (cutoff : ℚ) (hc : 0 < cutoff) (hcs : 2 * cutoff < (m * B : ℕ)) :
    ∃ h : ℕ → ℝ, (∀ M, ∑ k ∈ range M, h k ^ 2 ≤ 1) ∧
      ∀ (Ω : Type) [MeasurableSpace Ω] (P : Measure Ω) [IsProbabilityMeasure P] (s : List ℕ) (ι : Type) [Fintype ι] [Nonempty ι]
        (bits : List (ι → Bool)) (D : ℕ), N < bits.length * m → bits.length * m ≠ 2 → m / 2 + D < bits.length * m →
      (∀ i, ∃ r ∈ bits, r i = false) → ∀ (pos : ι → Pos s)
        (x : ℕ → Ten s) (R dark load threshold : ℝ), load ≠ 0 →
      (∀ n < bits.length * m, ∀ q, 0 ≤ diodeNoise dark load cutoff (R * entry s q (x n))) →
      ∀ (randn : Ω → (s : List ℕ) → ℕ → List (Ten s)) (ζ : Ω → ℕ → Ten s), (∀ ω, randn ω s (bits.length * m) = samples (bits.length * m) (ζ ω)) →
      (∀ i : ℕ × Pos s, Measurable fun ω => entry s i.2 (ζ ω i.1)) →
      (∀ i : ℕ × Pos s, HasLaw (fun ω => entry s i.2 (ζ ω i.1)) (gaussianReal 0 1) P) →
      iIndepFun (fun (i : ℕ × Pos s) ω => entry s i.2 (ζ ω i.1)) P → ∀ (rng : ℕ → List (ι → ℝ)) (butter : ℚ → List ℝ × List ℝ),
      ∃ (z : ℕ → Ten s) (y : Ω → ℕ → Ten s) (target : List (ι → ℝ)) (e : Ω → ℝ),
        lowpassDetect (fun w => butterworth N (w : ℝ)) ⟨s, samples (bits.length * m) x⟩ (m * B : ℕ) cutoff R = .ok ⟨s, samples (bits.length * m) z⟩ ∧
        (∀ ω, photoDetect (fun w => butterworth N (w : ℝ)) (randn ω) ⟨s, samples (bits.length * m) x⟩ (m * B : ℕ) cutoff R dark load =
          .ok (some ⟨s, samples (bits.length * m) (y ω)⟩)) ∧
        bitStream rng butter (.array (bitRows bits)) B (m * B : ℕ) none = .ok target ∧
        (∀ ω, berLoss (samples (bits.length * m) fun n i => entry s (pos i) (y ω n)) target threshold (D * B / (m * B : ℕ)) (0 : ℕ) B (m * B : ℕ) =
          .ok (some (e ω))) ∧
        ∫ ω, e ω ∂P = (∑ j ∈ range (bitsReceived (bits.length * m) m D), ∑ i,
          (gaussianReal (entry s (pos i) (z (j * m + m / 2 + D)))
            (∑ k ∈ range (j * m + m / 2 + D + 1), h (j * m + m / 2 + D - k) ^ 2 *
              diodeNoise dark load cutoff (R * entry s (pos i) (x k))).toNNReal).real
            (wrongSide threshold (bits.getD j (fun _ => false) i))) / (bitsReceived (bits.length * m) m D * Fintype.card ι) := by
  obtain ⟨h, hh, H⟩ := C120_noise N hN (m * B : ℕ) cutoff hc hcs
  refine ⟨h, hh, ?_⟩
  intro Ω _ P _ s ι _ _ bits D hNT hT2 hT hz pos x R dark load θ hload hv randn ζ hζ hme hl hi rng butter
  obtain ⟨z, y, h1, h2, h3⟩ := H Ω P s (bits.length * m) hNT hT2 x R dark load hload hv randn ζ hζ hme hl hi
  obtain ⟨target, ht, hr⟩ := C127_rate bits m B hm hB hz rng butter
  refine ⟨z, y, target, _, h1, h2, ht, fun ω => hr D hT (fun n i => entry s (pos i) (y ω n)) θ, ?_⟩
  rw [integral_div]
  congr 1
  have hj : ∀ j ∈ range (bitsReceived (bits.length * m) m D), j * m + m / 2 + D < bits.length * m := by
    intro j hj
    unfold bitsReceived at hj
    rw [mem_range, Nat.lt_div_iff_mul_lt hm] at hj
    omega
  have hfun : ∀ j i ω, (open Classical in if (θ < entry s (pos i) (y ω (j * m + m / 2 + D)) ↔ bits.getD j (fun _ => false) i = true)
      then (0 : ℝ) else 1) = (wrongSide θ (bits.getD j (fun _ => false) i)).indicator (fun _ => (1 : ℝ))
        (entry s (pos i) (y ω (j * m + m / 2 + D))) := by
    intro j i ω
    unfold wrongSide
    cases bits.getD j (fun _ => false) i with
    | true =>
      by_cases hc : θ < entry s (pos i) (y ω (j * m + m / 2 + D))
      · rw [if_pos (by simp [hc]), Set.indicator_of_notMem (by simp [hc])]
      · rw [if_neg (by simp [hc]), Set.indicator_of_mem (by simp; linarith)]
    | false =>
      by_cases hc : θ < entry s (pos i) (y ω (j * m + m / 2 + D))
      · rw [if_neg (by simp [hc]), Set.indicator_of_mem (by simp [hc])]
      · rw [if_pos (by simp; linarith), Set.indicator_of_notMem (by simp; linarith)]
  have hint : ∀ j ∈ range (bitsReceived (bits.length * m) m D), ∀ i, Integrable (fun ω =>
      (wrongSide θ (bits.getD j (fun _ => false) i)).indicator (fun _ => (1 : ℝ)) (entry s (pos i) (y ω (j * m + m / 2 + D)))) P := by
    intro j hj' i
    have hX := h3 _ (hj j hj') (pos i)
    refine Integrable.comp_aemeasurable (g := (wrongSide θ (bits.getD j (fun _ => false) i)).indicator fun _ => (1 : ℝ)) (f := fun ω => entry s (pos i) (y ω (j * m + m / 2 + D))) ?_ hX.aemeasurable
    rw [hX.map_eq]
    exact (integrable_const (1 : ℝ)).indicator (wrongSide_measurable _ _)
  simp only [hfun]
  rw [integral_finset_sum _ fun j hj' => integrable_finset_sum _ fun i _ => hint j hj' i]
  apply sum_congr rfl
  intro j hj'
  rw [integral_finset_sum _ fun i _ => hint j hj' i]
  apply sum_congr rfl
  intro i _
  have hX := h3 _ (hj j hj') (pos i)
  have := integral_map (f := (wrongSide θ (bits.getD j (fun _ => false) i)).indicator fun _ => (1 : ℝ)) hX.aemeasurable (by
    rw [hX.map_eq]
    exact ((integrable_const (1 : ℝ)).indicator (wrongSide_measurable _ _)).aestronglyMeasurable)
  rw [hX.map_eq] at this
  rw [← this, integral_indicator_const _ (wrongSide_measurable _ _), smul_eq_mul, mul_one]

/-- … If the currents keep a distance of `δ` from the threshold, and the noise of no step has a variance of more than `v`, then the expected
bit error rate is at most `exp (-δ² / 2 v)`. -/
theorem C128_bound (N : ℕ) (hN : 0 < N) (m B : ℕ) (hm : 0 < m) (hB : 0 < B) (cutoff : ℚ) (hc : 0 < cutoff) (hcs : 2 * cutoff < (m * B : ℕ))
    (Ω : Type) [MeasurableSpace Ω] (P : Measure Ω) [IsProbabilityMeasure P] (s : List ℕ) (ι : Type) [Fintype ι] [Nonempty ι]
    (bits : List (ι → Bool)) (D : ℕ) (hNT : N < bits.length * m) (hT2 : bits.length * m ≠ 2) (hT : m / 2 + D < bits.length * m)
    (hz : ∀ i, ∃ r ∈ bits, r i = false) (pos : ι → Pos s)
    (x : ℕ → Ten s) (R dark load threshold : ℝ) (hload : load ≠ 0)
    (hv : ∀ n < bits.length * m, ∀ q, 0 ≤ diodeNoise dark load cutoff (R * entry s q (x n)))
    (randn : Ω → (s : List ℕ) → ℕ → List (Ten s)) (ζ : Ω → ℕ → Ten s)
    (hζ : ∀ ω, randn ω s (bits.length * m) = samples (bits.length * m) (ζ ω))
    (hme : ∀ i : ℕ × Pos s, Measurable fun ω => entry s i.2 (ζ ω i.1))
    (hl : ∀ i : ℕ × Pos s, HasLaw (fun ω => entry s i.2 (ζ ω i.1)) (gaussianReal 0 1) P)
    (hi : iIndepFun (fun (i : ℕ × Pos s) ω => entry s i.2 (ζ ω i.1)) P) (rng : ℕ → List (ι → ℝ)) (butter : ℚ → List ℝ × List ℝ)
    (v δ : ℝ) (hvar : ∀ n < bits.length * m, ∀ i, diodeNoise dark load cutoff (R * entry s (pos i) (x n)) ≤ v) (hδ : 0 ≤ δ) :
    ∃ (z : ℕ → Ten s) (y : Ω → ℕ → Ten s) (target : List (ι → ℝ)) (e : Ω → ℝ),
      lowpassDetect (fun w => butterworth N (w : ℝ)) ⟨s, samples (bits.length * m) x⟩ (m * B : ℕ) cutoff R = .ok ⟨s, samples (bits.length * m) z⟩ ∧
      (∀ ω, photoDetect (fun w => butterworth N (w : ℝ)) (randn ω) ⟨s, samples (bits.length * m) x⟩ (m * B : ℕ) cutoff R dark load =
        .ok (some ⟨s, samples (bits.length * m) (y ω)⟩)) ∧
      bitStream rng butter (.array (bitRows bits)) B (m * B : ℕ) none = .ok target ∧
      (∀ ω, berLoss (samples (bits.length * m) fun n i => entry s (pos i) (y ω n)) target threshold (D * B / (m * B : ℕ)) (0 : ℕ) B (m * B : ℕ) =
        .ok (some (e ω))) ∧
      ((∀ j < bitsReceived (bits.length * m) m D, ∀ i, if bits.getD j (fun _ => false) i then
          threshold + δ ≤ entry s (pos i) (z (j * m + m / 2 + D)) else entry s (pos i) (z (j * m + m / 2 + D)) + δ ≤ threshold) →
        ∫ ω, e ω ∂P ≤ Real.exp (-δ ^ 2 / (2 * v))) := by
  obtain ⟨h, hh, H⟩ := C128_expected N hN m B hm hB cutoff hc hcs
  obtain ⟨z, y, target, e, h1, h2, h3, h4, h5⟩ := H Ω P s ι bits D hNT hT2 hT hz pos x R dark load threshold hload hv randn ζ hζ hme hl hi rng
    butter
  refine ⟨z, y, target, e, h1, h2, h3, h4, fun hmargin => ?_⟩
  rw [h5]
  have hn : 0 < bitsReceived (bits.length * m) m D := Nat.div_pos (by omega) hm
  have hden : (0 : ℝ) < (bitsReceived (bits.length * m) m D : ℕ) * Fintype.card ι := by
    have : (0 : ℝ) < Fintype.card ι := by exact_mod_cast Fintype.card_pos
    have : (0 : ℝ) < (bitsReceived (bits.length * m) m D : ℕ) := by exact_mod_cast hn
    positivity
  rw [div_le_iff₀ hden]
  have hterm : ∀ j ∈ range (bitsReceived (bits.length * m) m D), ∀ i ∈ (univ : Finset ι),
      (gaussianReal (entry s (pos i) (z (j * m + m / 2 + D)))
        (∑ k ∈ range (j * m + m / 2 + D + 1), h (j * m + m / 2 + D - k) ^ 2 *
          diodeNoise dark load cutoff (R * entry s (pos i) (x k))).toNNReal).real
        (wrongSide threshold (bits.getD j (fun _ => false) i)) ≤ Real.exp (-δ ^ 2 / (2 * v)) := by
    intro j hj i _
    have hjT : j * m + m / 2 + D < bits.length * m := by
      unfold bitsReceived at hj
      rw [mem_range, Nat.lt_div_iff_mul_lt hm] at hj
      omega
    have hv0 : 0 ≤ v := (hv 0 (by omega) (pos i)).trans (hvar 0 (by omega) i)
    refine wrong_le _ v δ threshold _ ?_ hδ _ (hmargin j (mem_range.1 hj) i)
    rw [Real.coe_toNNReal _ (sum_nonneg fun k hk => mul_nonneg (sq_nonneg _) (hv k (by have := mem_range.1 hk; omega) _))]
    calc _ ≤ ∑ k ∈ range (j * m + m / 2 + D + 1), h (j * m + m / 2 + D - k) ^ 2 * v :=
          sum_le_sum fun k hk => mul_le_mul_of_nonneg_left (hvar k (by have := mem_range.1 hk; omega) i) (sq_nonneg _)
      _ = (∑ k ∈ range (j * m + m / 2 + D + 1), h k ^ 2) * v := by
          rw [← sum_mul, ← sum_range_reflect]
          congr 1
          apply sum_congr rfl
          intro k hk
          have := mem_range.1 hk
          congr 2
          omega
      _ ≤ 1 * v := mul_le_mul_of_nonneg_right (hh _) hv0
      _ = v := one_mul v
  calc _ ≤ ∑ j ∈ range (bitsReceived (bits.length * m) m D), ∑ _i : ι, Real.exp (-δ ^ 2 / (2 * v)) :=
        sum_le_sum fun j hj => sum_le_sum fun i hi => hterm j hj i hi
    _ = _ := by
        rw [sum_const, sum_const, card_range, card_univ, nsmul_eq_mul, nsmul_eq_mul]
        ring

/-- **C128**. The link of C127 with a photodetector: for every distance `δ` less than the distances of the threshold from the currents of the
two bits, the expected bit error rate is at most `exp (-δ² / 2 v)`, where `v` is the variance of the noise of a one, if there are enough
samples per bit for the filter. -/
theorem C128_link (N : ℕ) (hN : 0 < N) (w : ℚ) (hw0 : 0 < w) (hw1 : w < 1) (z : Wg) (R threshold δ : ℝ) (hδ : 0 ≤ δ) (hθ : δ < threshold)
    (hR : threshold + δ < R * z.transmission) :
    ∃ d, LinkedNet (lineModules z) lineLinks d ∧ ∃ m₀ : ℕ, ∀ m ≥ m₀, ∀ (nw b B : ℕ), 0 < b → 0 < B → ∀ (v : ℝ) (wl : Fin nw → ℝ)
      (env : SimEnv) (bits : List (Fin b → Bool)), env.freqdomain = false → env.dt = some (1 / (m * B : ℝ)) → env.t.length = bits.length * m →
      m / 2 + z.steps v (1 / (m * B : ℝ)) < bits.length * m → (∀ i, ∃ r ∈ bits, r i = false) → ∀ dark load : ℝ, 0 ≤ dark → 0 < load →
      ∀ (Ω : Type) [MeasurableSpace Ω] (P : Measure Ω) [IsProbabilityMeasure P] (randn : Ω → (s : List ℕ) → ℕ → List (Ten s))
        (ζ : Ω → ℕ → Ten [nw, 1, b]), (∀ ω, randn ω [nw, 1, b] (bits.length * m) = samples (bits.length * m) (ζ ω)) →
      (∀ i : ℕ × Pos [nw, 1, b], Measurable fun ω => entry _ i.2 (ζ ω i.1)) →
      (∀ i : ℕ × Pos [nw, 1, b], HasLaw (fun ω => entry _ i.2 (ζ ω i.1)) (gaussianReal 0 1) P) →
      iIndepFun (fun (i : ℕ × Pos [nw, 1, b]) ω => entry _ i.2 (ζ ω i.1)) P →
      ∀ (rng : ℕ → List (Fin b → ℝ)) (butter : ℚ → List ℝ × List ℝ), ∃ r stream, initNet (d.plant v wl) env = .ok (some r) ∧
        bitStream rng butter (.array (bitRows bits)) B (m * B : ℕ) none = .ok stream ∧
        ∀ cs : List (Actor (Fin nw) (Fin b)), ∃ out, ∃ cur : Ω → List (Ten [nw, 1, b]),
          forwardPower r env cs (fun n _ _ i => (stream.getD n 0 i, 0)) = .ok out ∧
          (∀ ω, photoDetect (fun w => butterworth N (w : ℝ)) (randn ω) ⟨[nw, 1, b], out.map (powers 1)⟩ (m * B : ℕ) (w * (m * B : ℕ) / 2) R
            dark load = .ok (some ⟨[nw, 1, b], cur ω⟩)) ∧
          ∀ q : Fin nw, ∃ e : Ω → ℝ, (∀ ω, berLoss (channel (cur ω) q 0) stream threshold (z.steps v (1 / (m * B : ℝ)) * B / (m * B : ℕ)) (0 : ℕ)
            B (m * B : ℕ) = .ok (some (e ω))) ∧
            ∫ ω, e ω ∂P ≤ Real.exp (-δ ^ 2 / (2 * diodeNoise dark load (w * (m * B : ℕ) / 2) (R * z.transmission))) := by
  obtain ⟨d, hd, H⟩ := line_bits z
  refine ⟨d, hd, ?_⟩
  have hα := z.transmission_pos
  have hθ0 : 0 < threshold := hδ.trans_lt hθ
  have hRα : 0 < R * z.transmission := by linarith
  have hR0 : 0 < R := pos_of_mul_pos_left hRα hα.le
  set ε := min (R * z.transmission - threshold - δ) (threshold - δ) / (R * z.transmission) with hε
  have hε0 : 0 < ε := div_pos (lt_min (by linarith) (by linarith)) hRα
  have hε1 : ε * (R * z.transmission) = min (R * z.transmission - threshold - δ) (threshold - δ) := by rw [hε, div_mul_cancel₀ _ hRα.ne']
  obtain ⟨k, hk⟩ := C127_eye N hN w hw0 hw1 ε hε0
  refine ⟨2 * k + N + 3, fun m hm nw b B hb hB v wl env bits hf hdt hT hD hz dark load hdark hload Ω _ P _ randn ζ hζ hme hl hi rng butter => ?_⟩
  have hm0 : 0 < m := by omega
  obtain ⟨r, stream, hr, hs, H⟩ := H nw b m B hm0 hB v wl env bits hf hdt hT rng butter
  refine ⟨r, stream, hr, hs, fun cs => ?_⟩
  obtain ⟨out, ho, hp⟩ := H cs
  set D := z.steps v (1 / (m * B : ℝ))
  have hlen : 0 < bits.length := by
    by_contra h
    rw [show bits.length = 0 by omega] at hD
    omega
  have hTm : m ≤ bits.length * m := Nat.le_mul_of_pos_left m hlen
  have hS0 : (0 : ℚ) < (m * B : ℕ) := by exact_mod_cast Nat.mul_pos hm0 hB
  have hS := hS0.ne'
  set x : ℕ → Ten [nw, 1, b] := fun n => (fun _ _ i => if D ≤ n ∧ bits.getD ((n - D) / m) (fun _ => false) i = true then z.transmission else 0 :
    Ten [nw, 1, b]) with hx
  have hcut : 2 * (w * (m * B : ℕ) / 2) / (m * B : ℕ) = w := by field_simp
  obtain ⟨y, hy, hY⟩ := hk (m * B : ℕ) (w * (m * B : ℕ) / 2) hcut [nw, 1, b] (bits.length * m) (by omega) (by omega) R x
  haveI : Nonempty (Fin b) := ⟨⟨0, hb⟩⟩
  have hxle : ∀ n (p : Pos [nw, 1, b]), 0 ≤ entry _ p (x n) ∧ entry _ p (x n) ≤ z.transmission := by
    intro n p
    show 0 ≤ (if D ≤ n ∧ bits.getD ((n - D) / m) (fun _ => false) p.2.2.1 = true then z.transmission else 0) ∧
      (if D ≤ n ∧ bits.getD ((n - D) / m) (fun _ => false) p.2.2.1 = true then z.transmission else 0) ≤ z.transmission
    split
    · exact ⟨hα.le, le_rfl⟩
    · exact ⟨le_rfl, hα.le⟩
  have hw' : (0 : ℝ) < ((w * (m * B : ℕ) / 2 : ℚ) : ℝ) := by
    have : (0 : ℚ) < w * (m * B : ℕ) / 2 := by positivity
    exact_mod_cast this
  have hnoise : ∀ n p, 0 ≤ diodeNoise dark load ((w * (m * B : ℕ) / 2 : ℚ) : ℝ) (R * entry _ p (x n)) ∧
      diodeNoise dark load ((w * (m * B : ℕ) / 2 : ℚ) : ℝ) (R * entry _ p (x n)) ≤
        diodeNoise dark load ((w * (m * B : ℕ) / 2 : ℚ) : ℝ) (R * z.transmission) := by
    intro n p
    obtain ⟨a, b⟩ := hxle n p
    have a' : 0 ≤ R * entry _ p (x n) := mul_nonneg hR0.le a
    have b' : R * entry _ p (x n) ≤ R * z.transmission := mul_le_mul_of_nonneg_left b hR0.le
    unfold diodeNoise
    constructor
    · positivity
    · have := mul_le_mul_of_nonneg_right (mul_le_mul_of_nonneg_left (add_le_add_left b' dark) (by norm_num : (0 : ℝ) ≤ 2 * 1.602176563e-19)) hw'.le
      linarith
  obtain ⟨h, -, G⟩ := C120_noise N hN (m * B : ℕ) (w * (m * B : ℕ) / 2) (by positivity) (by
    have : w * (m * B : ℕ) < 1 * (m * B : ℕ) := mul_lt_mul_of_pos_right hw1 hS0
    linarith)
  obtain ⟨z', y', hz', hy', -⟩ := G Ω P [nw, 1, b] (bits.length * m) (by omega) (by omega) x R dark load hload.ne' (fun n _ q => (hnoise n q).1)
    randn ζ hζ hme hl hi
  refine ⟨out, fun ω => samples (bits.length * m) (y' ω), ho, fun ω => by rw [hp]; exact hy' ω, fun q => ?_⟩
  obtain ⟨z2, y2, target, e, g1, g2, g3, g4, g5⟩ := C128_bound N hN m B hm0 hB (w * (m * B : ℕ) / 2) (by positivity) (by
    have : w * (m * B : ℕ) < 1 * (m * B : ℕ) := mul_lt_mul_of_pos_right hw1 hS0
    linarith) Ω P [nw, 1, b] (Fin b) bits D (by omega) (by omega) hD hz (fun i => (q, 0, i, ())) x R dark load threshold hload.ne'
    (fun n _ q => (hnoise n q).1) randn ζ hζ hme hl hi rng butter
    (diodeNoise dark load ((w * (m * B : ℕ) / 2 : ℚ) : ℝ) (R * z.transmission)) δ (fun n _ i => (hnoise n _).2) hδ
  rw [hs] at g3
  obtain rfl := Except.ok.inj g3
  have hyy : ∀ ω, samples (bits.length * m) (y2 ω) = samples (bits.length * m) (y' ω) := by
    intro ω
    have := (g2 ω).symm.trans (hy' ω)
    exact eq_of_heq (Sig.mk.inj (Option.some.inj (Except.ok.inj this))).2
  have hzy : samples (bits.length * m) z2 = samples (bits.length * m) y := by
    have := g1.symm.trans hy
    exact eq_of_heq (Sig.mk.inj (Except.ok.inj this)).2
  refine ⟨e, fun ω => ?_, ?_⟩
  · show berLoss (channel (samples (bits.length * m) (y' ω)) q 0) stream threshold (D * B / (m * B : ℕ)) (0 : ℕ) B (m * B : ℕ) = _
    rw [← hyy]
    refine Eq.trans ?_ (g4 ω)
    congr 1
    exact samples_map _ _ _
  · have := g5 ?_
    · convert this using 5
      push_cast
      rfl
    intro j hj i
    have hjT : j * m + m / 2 + D < bits.length * m := by
      unfold bitsReceived at hj
      rw [Nat.lt_div_iff_mul_lt hm0] at hj
      omega
    have hzj : z2 (j * m + m / 2 + D) = y (j * m + m / 2 + D) := by
      have := congrArg (fun l => l[j * m + m / 2 + D]?) hzy
      simpa [samples, List.getElem?_range hjT] using this
    have key := hY (q, 0, i, ()) (j * m + m / 2 + D) (by omega) (by omega) z.transmission
      (if bits.getD j (fun _ => false) i = true then z.transmission else 0) (fun n _ => by
        obtain ⟨a, b⟩ := hxle n (q, 0, i, ())
        rw [abs_of_nonneg a]
        exact b) (by
        intro l hl
        show (if D ≤ j * m + m / 2 + D - l ∧ bits.getD ((j * m + m / 2 + D - l - D) / m) (fun _ => false) i = true then z.transmission else 0) = _
        have e1 : D ≤ j * m + m / 2 + D - l := by omega
        have e2 : (j * m + m / 2 + D - l - D) / m = j := by
          have : j * m + m / 2 + D - l - D = (m / 2 - l) + j * m := by omega
          rw [this, Nat.add_mul_div_right _ _ hm0, Nat.div_eq_of_lt (by omega), Nat.zero_add]
        rw [e2]
        simp only [e1, true_and])
    rw [hzj]
    rw [abs_of_pos hR0, hε1, abs_le] at key
    have m1 := min_le_left (R * z.transmission - threshold - δ) (threshold - δ)
    have m2 := min_le_right (R * z.transmission - threshold - δ) (threshold - δ)
    by_cases hbit : bits.getD j (fun _ => false) i = true
    · rw [if_pos hbit] at key ⊢
      linarith [key.1]
    · rw [if_neg hbit] at key ⊢
      rw [mul_zero, sub_zero] at key
      linarith [key.2]

/-! ### A concrete instance -/

theorem line_hundredth : (⟨2, 10, 3, 1.55e-6, 0, 0⟩ : Wg).transmission = 1 / 100 := by
  unfold Wg.transmission
  norm_num

theorem line_now (dt : ℝ) : (⟨2, 10, 3, 1.55e-6, 0, 0⟩ : Wg).steps 3e8 dt = 0 := by
  unfold Wg.steps
  norm_num

/-- Two bits through a link that loses 20 dB (and does not delay), received by a detector of order four with the default ratio of cutoff and
sample rate, load and dark current: the conditions of `C128_link` hold for some number of samples per bit and independent normal numbers. -/
example : ∃ (m : ℕ) (d : Dev) (r : Reduced (Fin 1)) (Ω : Type) (_ : MeasurableSpace Ω) (P : Measure Ω)
    (randn : Ω → (s : List ℕ) → ℕ → List (Ten s)) (env : SimEnv) (stream : List (Fin 1 → ℝ)) (out : List (Fin 1 → Fin 1 → List ℝ))
    (cur : Ω → List (Ten [1, 1, 1])) (e : Ω → ℝ), IsProbabilityMeasure P ∧ 0 < m ∧
    LinkedNet (lineModules ⟨2, 10, 3, 1.55e-6, 0, 0⟩) lineLinks d ∧ initNet (d.plant 3e8 fun _ : Fin 1 => 1.55e-6) env = .ok (some r) ∧
    bitStream (fun _ => []) (fun _ => ([], [])) (.array (bitRows [fun _ => true, fun _ => false])) (40000000000 : ℕ) (m * 40000000000 : ℕ) none =
      .ok stream ∧
    forwardPower r env ([] : List (Actor (Fin 1) (Fin 1))) (fun n _ _ i => (stream.getD n 0 i, 0)) = .ok out ∧
    (∀ ω, photoDetect (fun w => butterworth 4 (w : ℝ)) (randn ω) ⟨[1, 1, 1], out.map (powers 1)⟩ (m * 40000000000 : ℕ)
      (1 / 4 * (m * 40000000000 : ℕ) / 2) 1 1e-10 1e6 = .ok (some ⟨[1, 1, 1], cur ω⟩)) ∧
    (∀ ω, berLoss (channel (cur ω) 0 0) stream 0.005 ((0 : ℕ) * (40000000000 : ℕ) / (m * 40000000000 : ℕ)) (0 : ℕ) (40000000000 : ℕ)
      (m * 40000000000 : ℕ) = .ok (some (e ω))) ∧
    ∫ ω, e ω ∂P ≤ Real.exp (-0.004 ^ 2 / (2 * diodeNoise 1e-10 1e6 (((1 / 4 : ℚ) : ℝ) * (m * 40000000000 : ℕ) / 2) (1 * (1 / 100)))) := by
  obtain ⟨d, hd, m₀, H⟩ := C128_link 4 (by norm_num) (1 / 4) (by norm_num) (by norm_num) ⟨2, 10, 3, 1.55e-6, 0, 0⟩ 1 0.005 0.004 (by norm_num)
    (by norm_num) (by rw [line_hundredth]; norm_num)
  obtain ⟨Ω, mΩ, P, X, hm, hl, hi, hP⟩ := exists_iid.{0, 0} (ℕ × Pos [1, 1, 1]) (gaussianReal 0 1)
  let m := m₀ + 1
  let env : SimEnv := ⟨some (1 / ((m : ℝ) * ((40000000000 : ℕ) : ℝ))), false, List.replicate (2 * m) 0⟩
  obtain ⟨r, stream, hr, hs, H⟩ := H m (Nat.le_succ _) 1 1 40000000000 (by norm_num) (by norm_num) 3e8 (fun _ => 1.55e-6) env
    [fun _ => true, fun _ => false] rfl rfl (by show (List.replicate (2 * m) (0 : ℝ)).length = _; simp) (by
      rw [line_now]
      have : 0 < m := Nat.succ_pos _
      show m / 2 + 0 < 2 * m
      omega) (fun i => ⟨fun _ => false, by simp, rfl⟩) 1e-10 1e6 (by norm_num) (by norm_num) Ω P
    (fun ω s T => if h : s = [1, 1, 1] then h ▸ samples T fun n i j k => X (n, (i, j, k, ())) ω else [])
    (fun ω n i j k => X (n, (i, j, k, ())) ω) (fun ω => dif_pos rfl) hm hl hi (fun _ => []) (fun _ => ([], []))
  obtain ⟨out, cur, ho, hc, He⟩ := H []
  obtain ⟨e, he, hint⟩ := He 0
  rw [line_now] at he
  rw [line_hundredth] at hint
  exact ⟨m, d, r, Ω, mΩ, P, _, env, stream, out, cur, e, hP, Nat.succ_pos _, hd, hr, hs, ho, hc, he, hint⟩

end PT
