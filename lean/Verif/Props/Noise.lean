import Verif.Spec.Noise
import Verif.Proof.Noise
import Verif.Props.Butter
import Mathlib.Probability.Distributions.Gaussian.Real
import Mathlib.Probability.HasLawExists

/-!
# The noise of photodetectors (C120)
-/

namespace PT

open Finset Spec MeasureTheory ProbabilityTheory

theorem noiseVar_eq (dark load : ℝ) (cutoff : ℚ) (p : ℝ) : noiseVar dark load cutoff p = diodeNoise dark load cutoff p := by
  unfold noiseVar diodeNoise
  ring

theorem entry_map₂ (f : ℝ → ℝ → ℝ) (s : List ℕ) (q : Pos s) (x y : Ten s) : entry s q (Ten.map₂ f s x y) = f (entry s q x) (entry s q y) := by
  induction s with
  | nil => rfl
  | cons n s ih => exact ih q.2 (x q.1) (y q.1)

theorem all_iff_entry (P : ℝ → Prop) (s : List ℕ) (x : Ten s) : Ten.all P s x ↔ ∀ q, P (entry s q x) := by
  induction s with
  | nil => exact ⟨fun h _ => h, fun h => h ()⟩
  | cons n s ih =>
    constructor
    · intro h q
      exact (ih (x q.1)).1 (h q.1) q.2
    · intro h i
      exact (ih (x i)).2 fun q => h (i, q)

/-- A sum of independent normal numbers with weights. -/
theorem gauss_sum {Ω ι : Type} [MeasurableSpace Ω] (P : Measure Ω) [IsProbabilityMeasure P] (ξ : ι → Ω → ℝ) (hm : ∀ i, Measurable (ξ i))
    (hl : ∀ i, HasLaw (ξ i) (gaussianReal 0 1) P) (hi : iIndepFun ξ P) (c : ι → ℝ) (S : Finset ι) :
    HasLaw (fun ω => ∑ i ∈ S, c i * ξ i ω) (gaussianReal 0 (∑ i ∈ S, c i ^ 2).toNNReal) P := by
  classical
  induction S using Finset.induction_on with
  | empty =>
    simp only [sum_empty, Real.toNNReal_zero, gaussianReal_zero_var]
    exact ⟨measurable_const.aemeasurable, by simp⟩
  | insert a S ha ih =>
    have hc : iIndepFun (fun i ω => c i * ξ i ω) P := hi.comp (fun i t => c i * t) fun i => measurable_const_mul _
    have h1 := hc.indepFun_finsetSum_of_notMem (fun i => (hm i).const_mul _) ha
    have h2 := gaussianReal_const_mul (hl a) (c a)
    have e : (∑ j ∈ S, fun ω => c j * ξ j ω) = fun ω => ∑ i ∈ S, c i * ξ i ω := by
      funext ω
      rw [Finset.sum_apply]
    rw [e] at h1
    have h3 := gaussianReal_add_gaussianReal_of_indepFun h1 ih.map_eq h2.map_eq
    refine ⟨?_, ?_⟩
    · exact (Finset.measurable_sum _ fun i _ => (hm i).const_mul _).aemeasurable
    · have e2 : (fun ω => ∑ i ∈ insert a S, c i * ξ i ω) = (fun ω => ∑ i ∈ S, c i * ξ i ω) + fun ω => c a * ξ a ω := by
        funext ω
        rw [sum_insert ha, add_comm]
        rfl
      rw [e2, h3]
      congr 1
      · ring
      · rw [sum_insert ha, add_comm (c a ^ 2), Real.toNNReal_add (sum_nonneg fun i _ => sq_nonneg _) (sq_nonneg _), mul_one]
        congr 1
        ext
        simp [Real.coe_toNNReal _ (sq_nonneg (c a))]

/-- What a photodetector computes. -/
theorem photo_filter (N : ℕ) (samplerate cutoff : ℚ) (h0 : 0 < 2 * cutoff / samplerate) (h1 : 2 * cutoff / samplerate < 1) (s : List ℕ) (T : ℕ)
    (hT : N < T) (hT2 : T ≠ 2) (x : ℕ → Ten s) (R dark load : ℝ) (hload : load ≠ 0)
    (hv : ∀ n < T, ∀ q, 0 ≤ diodeNoise dark load cutoff (R * entry s q (x n))) (randn : (s : List ℕ) → ℕ → List (Ten s)) (ζ : ℕ → Ten s)
    (hζ : randn s T = samples T ζ) (y : ℕ → Ten s)
    (hy : FilterEq (butterworth N ((2 * cutoff / samplerate : ℚ) : ℝ)).1 (butterworth N ((2 * cutoff / samplerate : ℚ) : ℝ)).2 T
      (fun n => Ten.map₂ (fun p n => p + Real.sqrt (noiseVar dark load cutoff p) * n) s (R • x n) (ζ n)) y) :
    photoDetect (fun w => butterworth N (w : ℝ)) randn ⟨s, samples T x⟩ samplerate cutoff R dark load = .ok (some ⟨s, samples T y⟩) := by
  unfold photoDetect
  rw [toPower_of_ne s _ (by rw [samples_length]; exact hT2)]
  simp only
  rw [if_neg hload]
  have hs : (⟨s, samples T x⟩ : Sig).scale R = ⟨s, samples T fun n => R • x n⟩ := by
    unfold Sig.scale
    rw [samples_map]
  rw [hs]
  have ha : addNoise dark load cutoff ⟨s, samples T fun n => R • x n⟩ (randn s (samples T fun n => R • x n).length) =
      ⟨s, samples T fun n => Ten.map₂ (fun p n => p + Real.sqrt (noiseVar dark load cutoff p) * n) s (R • x n) (ζ n)⟩ := by
    unfold addNoise
    simp only
    rw [samples_length, hζ]
    congr 1
    unfold samples
    rw [List.zipWith_map]
    simp
  have hd := C55_filter_partial _ N (butterworth_ok N) (fun w => butterworth_palindrome N w) s T hT2 hT _ y samplerate cutoff h0 h1 1
    (by simpa only [one_smul] using hy)
  rw [ha, hd]
  refine congrArg Except.ok (if_pos ?_)
  intro r hr
  obtain ⟨n, hn, rfl⟩ := List.mem_map.1 hr
  rw [all_iff_entry]
  intro q
  rw [noiseVar_eq, map_smul, smul_eq_mul]
  exact hv n (List.mem_range.1 hn) q

/-- **C120**. The current of a photodetector is normally distributed about the current of a low-pass detector; the variance at step `n` is
the sum of the variances of the noise of the steps up to `n`, weighted by the squares of a response `h` that depends on the filter only and
whose squares add up to at most one. -/
theorem C120_noise (N : ℕ) (hN : 0 < N) (samplerate cutoff : ℚ) (hc : 0 < cutoff) (hcs : 2 * cutoff < samplerate) :
    ∃ h : ℕ → ℝ, (∀ M, ∑ k ∈ range M, h k ^ 2 ≤ 1) ∧
      ∀ (Ω : Type) [MeasurableSpace Ω] (P : Measure Ω) [IsProbabilityMeasure P] (s : List ℕ) (T : ℕ), N < T → T ≠ 2 →
      ∀ (x : ℕ → Ten s) (R dark load : ℝ), load ≠ 0 → (∀ n < T, ∀ q, 0 ≤ diodeNoise dark load cutoff (R * entry s q (x n))) →
      ∀ (randn : Ω → (s : List ℕ) → ℕ → List (Ten s)) (ζ : Ω → ℕ → Ten s), (∀ ω, randn ω s T = samples T (ζ ω)) →
      (∀ i : ℕ × Pos s, Measurable fun ω => entry s i.2 (ζ ω i.1)) →
      (∀ i : ℕ × Pos s, HasLaw (fun ω => entry s i.2 (ζ ω i.1)) (gaussianReal 0 1) P) →
      iIndepFun (fun (i : ℕ × Pos s) ω => entry s i.2 (ζ ω i.1)) P →
      ∃ (z : ℕ → Ten s) (y : Ω → ℕ → Ten s),
        lowpassDetect (fun w => butterworth N (w : ℝ)) ⟨s, samples T x⟩ samplerate cutoff R = .ok ⟨s, samples T z⟩ ∧
        (∀ ω, photoDetect (fun w => butterworth N (w : ℝ)) (randn ω) ⟨s, samples T x⟩ samplerate cutoff R dark load =
          .ok (some ⟨s, samples T (y ω)⟩)) ∧
        ∀ n < T, ∀ q, HasLaw (fun ω => entry s q (y ω n))
          (gaussianReal (entry s q (z n)) (∑ k ∈ range (n + 1), h (n - k) ^ 2 * diodeNoise dark load cutoff (R * entry s q (x k))).toNNReal) P := by
  obtain ⟨h0, h1⟩ := cut_lt samplerate cutoff hc hcs
  have hw := warp_pos ((2 * cutoff / samplerate : ℚ) : ℝ) (by exact_mod_cast h0) (by exact_mod_cast h1)
  have hf := fun T => filterOut_eq (butterworth N ((2 * cutoff / samplerate : ℚ) : ℝ)).1
    (butterworth N ((2 * cutoff / samplerate : ℚ) : ℝ)).2 (butterworth_one N _) T pulse
  set h := filterOut (butterworth N ((2 * cutoff / samplerate : ℚ) : ℝ)).1 (butterworth N ((2 * cutoff / samplerate : ℚ) : ℝ)).2 pulse with hh
  refine ⟨h, pulse_energy N hN _ hw h hf, ?_⟩
  intro Ω _ P _ s T hT hT2 x R dark load hload hv randn ζ hζ hm hl hi
  refine ⟨fun n => ∑ k ∈ range (n + 1), h (n - k) • R • x k, fun ω n => ∑ k ∈ range (n + 1), h (n - k) •
    Ten.map₂ (fun p n => p + Real.sqrt (noiseVar dark load cutoff p) * n) s (R • x k) (ζ ω k), ?_, ?_, ?_⟩
  · exact C55_filter_partial _ N (butterworth_ok N) (fun w => butterworth_palindrome N w) s T hT2 hT _ _ samplerate cutoff h0 h1 R
      (convolution_filter _ _ h hf _ T)
  · intro ω
    exact photo_filter N samplerate cutoff h0 h1 s T hT hT2 x R dark load hload hv (randn ω) (ζ ω) (hζ ω) _ (convolution_filter _ _ h hf _ T)
  · intro n hn q
    have g := gauss_sum P _ hm hl hi (fun i => h (n - i.1) * Real.sqrt (diodeNoise dark load cutoff (R * entry s q (x i.1))))
      ((range (n + 1)).map ⟨fun k => (k, q), fun a b hab => (Prod.mk.inj hab).1⟩)
    have g2 := gaussianReal_add_const g (entry s q (∑ k ∈ range (n + 1), h (n - k) • R • x k))
    rw [zero_add] at g2
    simp only [sum_map] at g2
    have e1 : ∀ ω, entry s q (∑ k ∈ range (n + 1), h (n - k) •
        Ten.map₂ (fun p n => p + Real.sqrt (noiseVar dark load cutoff p) * n) s (R • x k) (ζ ω k)) =
        ∑ k ∈ range (n + 1), h (n - k) * Real.sqrt (diodeNoise dark load cutoff (R * entry s q (x k))) * entry s q (ζ ω k) +
          entry s q (∑ k ∈ range (n + 1), h (n - k) • R • x k) := by
      intro ω
      rw [map_sum, map_sum, ← sum_add_distrib]
      apply sum_congr rfl
      intro k _
      rw [map_smul, map_smul, entry_map₂, noiseVar_eq, map_smul, smul_eq_mul, smul_eq_mul, smul_eq_mul]
      ring
    have e2 : ∑ k ∈ range (n + 1), (h (n - k) * Real.sqrt (diodeNoise dark load cutoff (R * entry s q (x k)))) ^ 2 =
        ∑ k ∈ range (n + 1), h (n - k) ^ 2 * diodeNoise dark load cutoff (R * entry s q (x k)) := by
      apply sum_congr rfl
      intro k hk
      have := mem_range.1 hk
      rw [mul_pow, Real.sq_sqrt (hv k (by omega) q)]
    rw [← e2]
    simp only [e1]
    exact g2

/-- … in particular it is right on average, and its variance is at most the largest variance of the noise so far. -/
theorem C120_average (N : ℕ) (hN : 0 < N) (samplerate cutoff : ℚ) (hc : 0 < cutoff) (hcs : 2 * cutoff < samplerate)
    (Ω : Type) [MeasurableSpace Ω] (P : Measure Ω) [IsProbabilityMeasure P] (s : List ℕ) (T : ℕ) (hT : N < T) (hT2 : T ≠ 2)
    (x : ℕ → Ten s) (R dark load : ℝ) (hload : load ≠ 0) (hv : ∀ n < T, ∀ q, 0 ≤ diodeNoise dark load cutoff (R * entry s q (x n)))
    (randn : Ω → (s : List ℕ) → ℕ → List (Ten s)) (ζ : Ω → ℕ → Ten s) (hζ : ∀ ω, randn ω s T = samples T (ζ ω))
    (hm : ∀ i : ℕ × Pos s, Measurable fun ω => entry s i.2 (ζ ω i.1))
    (hl : ∀ i : ℕ × Pos s, HasLaw (fun ω => entry s i.2 (ζ ω i.1)) (gaussianReal 0 1) P)
    (hi : iIndepFun (fun (i : ℕ × Pos s) ω => entry s i.2 (ζ ω i.1)) P) :
    ∃ (z : ℕ → Ten s) (y : Ω → ℕ → Ten s),
      lowpassDetect (fun w => butterworth N (w : ℝ)) ⟨s, samples T x⟩ samplerate cutoff R = .ok ⟨s, samples T z⟩ ∧
      (∀ ω, photoDetect (fun w => butterworth N (w : ℝ)) (randn ω) ⟨s, samples T x⟩ samplerate cutoff R dark load =
        .ok (some ⟨s, samples T (y ω)⟩)) ∧
      ∀ n < T, ∀ q, ∫ ω, entry s q (y ω n) ∂P = entry s q (z n) ∧
        ∀ v, (∀ k ≤ n, diodeNoise dark load cutoff (R * entry s q (x k)) ≤ v) → Var[fun ω => entry s q (y ω n); P] ≤ v := by
  obtain ⟨h, hh, H⟩ := C120_noise N hN samplerate cutoff hc hcs
  obtain ⟨z, y, h1, h2, h3⟩ := H Ω P s T hT hT2 x R dark load hload hv randn ζ hζ hm hl hi
  refine ⟨z, y, h1, h2, ?_⟩
  intro n hn q
  have hlaw := h3 n hn q
  refine ⟨?_, ?_⟩
  · rw [hlaw.integral_eq, integral_id_gaussianReal]
  · intro v hv'
    rw [hlaw.variance_eq, variance_id_gaussianReal]
    have h0 : 0 ≤ v := (hv 0 (by omega) q).trans (hv' 0 (by omega))
    rw [Real.coe_toNNReal']
    apply max_le _ h0
    calc ∑ k ∈ range (n + 1), h (n - k) ^ 2 * diodeNoise dark load cutoff (R * entry s q (x k))
        ≤ ∑ k ∈ range (n + 1), h (n - k) ^ 2 * v := by
          apply sum_le_sum
          intro k hk
          have := mem_range.1 hk
          exact mul_le_mul_of_nonneg_left (hv' k (by omega)) (sq_nonneg _)
      _ = (∑ k ∈ range (n + 1), h k ^ 2) * v := by
          rw [← sum_mul, ← sum_range_reflect (fun k => h k ^ 2)]
          rfl
      _ ≤ 1 * v := mul_le_mul_of_nonneg_right (hh _) h0
      _ = v := one_mul v

/-- Ten steps of 1 mW in three channels at a detector with the default parameters, with independent normal numbers: the mean current is that
without noise and its standard deviation is below 3 µA. -/
example : ∃ (Ω : Type) (_ : MeasurableSpace Ω) (P : Measure Ω) (randn : Ω → (s : List ℕ) → ℕ → List (Ten s)) (z : ℕ → Ten [3])
    (y : Ω → ℕ → Ten [3]), IsProbabilityMeasure P ∧
    lowpassDetect (fun w => butterworth 4 (w : ℝ)) ⟨[3], samples 10 fun _ _ => (1e-3 : ℝ)⟩ 160e9 20e9 1 = .ok ⟨[3], samples 10 z⟩ ∧
    (∀ ω, photoDetect (fun w => butterworth 4 (w : ℝ)) (randn ω) ⟨[3], samples 10 fun _ _ => (1e-3 : ℝ)⟩ 160e9 20e9 1 1e-10 166 =
      .ok (some ⟨[3], samples 10 (y ω)⟩)) ∧
    ∀ n < 10, ∀ q, ∫ ω, entry [3] q (y ω n) ∂P = entry [3] q (z n) ∧ Var[fun ω => entry [3] q (y ω n); P] ≤ (3e-6) ^ 2 := by
  obtain ⟨Ω, mΩ, P, X, hm, hl, hi, hP⟩ := exists_iid.{0, 0} (ℕ × Pos [3]) (gaussianReal 0 1)
  have hx : ∀ q : Pos [3], (1 : ℝ) * entry [3] q (fun _ => (1e-3 : ℝ)) = 1e-3 := fun q => one_mul _
  obtain ⟨z, y, h1, h2, h3⟩ := C120_average 4 (by norm_num) 160e9 20e9 (by norm_num) (by norm_num) Ω P [3] 10 (by norm_num) (by norm_num)
    (fun _ _ => (1e-3 : ℝ)) 1 1e-10 166 (by norm_num) (by
      intro n _ q
      rw [hx q]
      unfold diodeNoise
      norm_num)
    (fun ω s T => if h : s = [3] then h ▸ samples T fun n i => X (n, (i, ())) ω else [])
    (fun ω n i => X (n, (i, ())) ω) (fun ω => dif_pos rfl) hm hl hi
  refine ⟨Ω, mΩ, P, _, z, y, hP, h1, h2, ?_⟩
  intro n hn q
  obtain ⟨h4, h5⟩ := h3 n hn q
  refine ⟨h4, h5 _ ?_⟩
  intro k _
  rw [hx q]
  unfold diodeNoise
  norm_num

end PT
