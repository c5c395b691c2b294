import Verif.Proof.Filter

/-!
# C54, C55, C73: detectors
-/

namespace PT

open Finset Spec

section Filter

variable {V : Type} [AddCommGroup V] [Module ℝ V]

/-! ## C54 -/

/-- C54 (what holds): for equally long coefficient lists with a palindromic numerator, and signals at least as long, `lfilter` returns the
solution of the filter equation. -/
theorem C54_palindromic_partial (b a : List ℝ) (ha : a.getD 0 0 ≠ 0) (hlen : a.length = b.length) (hb : b.reverse = b) (T : ℕ)
    (hT : b.length ≤ T) (x : ℕ → V) :
    (∃ y, FilterEq b a T x y) ∧ ∀ y, FilterEq b a T x y → lfilter b a (samples T x) = .ok (samples T y) := by
  obtain ⟨y, h1, h2⟩ := lfilter_eq b a ha hlen T hT x
  rw [hb] at h2
  refine ⟨⟨y, h2⟩, fun z hz => ?_⟩
  rw [h1]
  congr 1
  exact samples_congr T y z fun k hk => filterEq_unique b a ha T x y z h2 hz k hk

/-- The first-order filter `y[n] = x[n] + x[n-1] + y[n-1]/2` applied to an impulse. -/
example : lfilter [1, 1] [1, -1 / 2] (samples 3 fun n => if n = 0 then (1 : ℝ) else 0) =
    .ok (samples 3 fun n => if n = 0 then 1 else if n = 1 then 3 / 2 else 3 / 4) :=
  (C54_palindromic_partial [1, 1] [1, -1 / 2] (by norm_num) rfl rfl 3 (by norm_num) _).2 _ (by
    intro n hn
    match n, hn with
    | 0, _ => norm_num [sum_range_succ]
    | 1, _ => norm_num [sum_range_succ]
    | 2, _ => norm_num [sum_range_succ])

/-- C54 is violated: for every numerator that is not palindromic there is a signal (an impulse) for which the result is not the
output of the filter. -/
theorem C54_violation (b a : List ℝ) (ha : a.getD 0 0 ≠ 0) (hlen : a.length = b.length) (hb : b.reverse ≠ b) (T : ℕ)
    (hT : b.length ≤ T) :
    ∃ y : ℕ → ℝ, lfilter b a (samples T fun n => if n = 0 then (1 : ℝ) else 0) = .ok (samples T y) ∧
      ¬ FilterEq b a T (fun n => if n = 0 then (1 : ℝ) else 0) y := by
  obtain ⟨y, h1, h2⟩ := lfilter_eq b a ha hlen T hT fun n => if n = 0 then (1 : ℝ) else 0
  refine ⟨y, h1, fun h3 => hb ?_⟩
  apply List.ext_getElem?
  intro k
  by_cases hk : k < b.length
  · have e := (h3 k (by omega)).symm.trans (h2 k (by omega))
    have e' := sub_left_injective e
    have hs : ∀ c : List ℝ, ∑ i ∈ range (k + 1), c.getD i 0 • (if k - i = 0 then (1 : ℝ) else 0) = c.getD k 0 := by
      intro c
      rw [sum_eq_single k]
      · simp
      · intro i hi hik
        rw [mem_range] at hi
        rw [if_neg (by omega), smul_zero]
      · intro h
        exact absurd (by simp) h
    rw [hs, hs] at e'
    rw [List.getD_eq_getElem?_getD, List.getD_eq_getElem?_getD, List.getElem?_eq_getElem hk,
      List.getElem?_eq_getElem (by simpa using hk)] at e'
    rw [List.getElem?_eq_getElem hk, List.getElem?_eq_getElem (by simpa using hk)]
    exact congrArg some e'.symm
  · rw [List.getElem?_eq_none (by rw [List.length_reverse]; omega), List.getElem?_eq_none (by omega)]

example : ∃ y : ℕ → ℝ, lfilter [1, 0] [1, 0] (samples 3 fun n => if n = 0 then (1 : ℝ) else 0) = .ok (samples 3 y) ∧
    ¬ FilterEq [1, 0] [1, 0] 3 (fun n => if n = 0 then (1 : ℝ) else 0) y :=
  C54_violation _ _ (by norm_num) rfl (by simp) 3 (by norm_num)

theorem lfilterLoop_error (b a : List ℝ) (x : List V) (k n : ℕ) (ys : List V) (h : x.length < n + k) (hn : n ≤ x.length) :
    ∃ e, lfilterLoop b a x k n ys = .error e := by
  induction k generalizing n ys with
  | zero => omega
  | succ k ih =>
    rw [lfilterLoop]
    cases hr : lfilterRow b a x ys n with
    | error e => exact ⟨e, rfl⟩
    | ok v =>
      have hlt : n < x.length := by
        by_contra hc
        unfold lfilterRow at hr
        rw [if_pos (by omega)] at hr
        cases hr
      exact ih (n + 1) (ys ++ [v]) (by omega) (by omega)

/-- C54, C73 are violated: signals with fewer time steps than the filter has coefficients are rejected. -/
theorem C54_short_violation (b a : List ℝ) (x : List V) (h : x.length < b.length) : ∃ e, lfilter b a x = .error e := by
  unfold lfilter
  cases a with
  | nil => exact ⟨_, rfl⟩
  | cons a0 rest =>
    simp only
    split_ifs with h1 h2
    · exact ⟨_, rfl⟩
    · exact ⟨_, rfl⟩
    · apply lfilterLoop_error _ _ _ _ _ _ (by omega) (by omega)

example : ∃ e, lfilter [1, 1] [1, -1 / 2] [(1 : ℝ)] = .error e := C54_short_violation _ _ _ (by simp)

/-- C54 is violated for numerators that are longer than the denominator: the one coefficient of the denominator is applied to
all earlier outputs instead of the last. -/
theorem C54_length_violation : ∃ y : ℕ → ℝ, lfilter [1, 0, 1] [1, 1] (samples 3 fun n => if n = 0 then (1 : ℝ) else 0) = .ok (samples 3 y) ∧
    ¬ FilterEq [1, 0, 1] [1, 1] 3 (fun n => if n = 0 then (1 : ℝ) else 0) y := by
  refine ⟨fun n => if n = 0 then 1 else if n = 1 then -1 else 1, ?_, ?_⟩
  · simp only [lfilter, lfilterLoop, lfilterRow, mulSum, samples, List.range_succ]
    norm_num [lfilterLoop, lfilterRow, mulSum]
    rw [if_neg (by simp)]
    show Except.ok _ = _
    norm_num
  · intro h
    have := h 2 (by norm_num)
    norm_num [sum_range_succ] at this

/-- Filters are linear, … -/
theorem filterEq_linear (b a : List ℝ) (T : ℕ) (x y x' y' : ℕ → V) (c c' : ℝ) (h : FilterEq b a T x y) (h' : FilterEq b a T x' y') :
    FilterEq b a T (fun n => c • x n + c' • x' n) (fun n => c • y n + c' • y' n) := by
  intro n hn
  simp only [smul_add, sum_add_distrib, smul_comm _ c, smul_comm _ c', ← smul_sum]
  rw [h n hn, h' n hn, smul_sub, smul_sub]
  abel

/-- … and causal. -/
theorem filterEq_causal (b a : List ℝ) (ha : a.getD 0 0 ≠ 0) (T m : ℕ) (x y x' y' : ℕ → V) (h : FilterEq b a T x y)
    (h' : FilterEq b a T x' y') (hx : ∀ k < m, x k = x' k) (n : ℕ) (hn : n < m) (hT : n < T) : y n = y' n := by
  refine filterEq_unique b a ha (n + 1) x y y' (fun k hk => h k (by omega)) (fun k hk => ?_) n (by omega)
  rw [h' k (by omega)]
  congr 1
  apply sum_congr rfl
  intro i _
  rw [hx (k - i) (by omega)]

end Filter

/-! ## C55 -/

/-- What is assumed of `scipy.signal.butter`: numerator and denominator have `order + 1` coefficients, and the denominator starts with
one. -/
structure IsButter (butter : ℚ → List ℝ × List ℝ) (order : ℕ) : Prop where
  num : ∀ w, (butter w).1.length = order + 1
  den : ∀ w, (butter w).2.length = order + 1
  one : ∀ w, (butter w).2.getD 0 0 = 1

theorem toPower_of_ne (s : List ℕ) (x : List (Ten s)) (h : x.length ≠ 2) : Sig.toPower ⟨s, x⟩ = .ok ⟨s, x⟩ := by
  unfold Sig.toPower
  split
  · rename_i h1
    cases h1
    exact absurd rfl h
  · rename_i h1
    cases h1
    exact absurd rfl h
  · rfl

theorem rate_ne {samplerate cutoff : ℚ} (h : 0 < 2 * cutoff / samplerate) : samplerate ≠ 0 := by
  rintro rfl
  simp at h

/-- The effect of the filter of a detector on a power signal. -/
theorem detect_power (butter : ℚ → List ℝ × List ℝ) (order : ℕ) (hb : IsButter butter order) (s : List ℕ) (T : ℕ) (hT2 : T ≠ 2)
    (hT : order < T) (x : ℕ → Ten s) (samplerate cutoff : ℚ) (hw0 : 0 < 2 * cutoff / samplerate) (hw1 : 2 * cutoff / samplerate < 1)
    (R : ℝ) : ∃ y, lowpassDetect butter ⟨s, samples T x⟩ samplerate cutoff R = .ok ⟨s, samples T y⟩ ∧
      FilterEq (butter (2 * cutoff / samplerate)).1.reverse (butter (2 * cutoff / samplerate)).2 T (fun n => R • x n) y := by
  unfold lowpassDetect
  rw [toPower_of_ne s _ (by rw [samples_length]; exact hT2)]
  obtain ⟨y, h1, h2⟩ := lfilter_eq (butter (2 * cutoff / samplerate)).1 (butter (2 * cutoff / samplerate)).2
    (by rw [hb.one]; exact one_ne_zero) (by rw [hb.num, hb.den]) T (by rw [hb.num]; omega) fun n => R • x n
  refine ⟨y, ?_, h2⟩
  show Sig.lowpass butter ⟨s, (samples T x).map fun r => R • r⟩ samplerate cutoff = _
  rw [samples_map]
  unfold Sig.lowpass
  simp only
  rw [if_neg (rate_ne hw0), if_neg hw1.ne, if_neg (not_lt.2 hw1.le), if_neg (not_le.2 hw0), h1]
  rfl

/-- C55 (what holds): a power signal whose number of time steps is not two and exceeds the filter order is detected; the time axis and the
shape are kept, … -/
theorem C55_axis_partial (butter : ℚ → List ℝ × List ℝ) (order : ℕ) (hb : IsButter butter order) (s : List ℕ) (x : List (Ten s))
    (hT2 : x.length ≠ 2) (hT : order < x.length) (samplerate cutoff : ℚ) (hw0 : 0 < 2 * cutoff / samplerate)
    (hw1 : 2 * cutoff / samplerate ≤ 1) (R : ℝ) :
    ∃ y : List (Ten s), lowpassDetect butter ⟨s, x⟩ samplerate cutoff R = .ok ⟨s, y⟩ ∧ y.length = x.length := by
  rcases hw1.lt_or_eq with hw1 | hw1
  · obtain ⟨y, h, -⟩ := detect_power butter order hb s x.length hT2 hT (fun k => x.getD k 0) samplerate cutoff hw0 hw1 R
    rw [samples_self] at h
    exact ⟨_, h, samples_length _ _⟩
  · refine ⟨x.map fun r => R • r, ?_, by simp⟩
    unfold lowpassDetect
    rw [toPower_of_ne s _ hT2]
    show Sig.lowpass butter ⟨s, x.map fun r => R • r⟩ samplerate cutoff = _
    unfold Sig.lowpass
    simp only
    rw [if_neg (rate_ne hw0), if_pos hw1]

/-- … it is the output of the low-pass filter for the power times the responsivity (the numerator of a Butterworth filter is palindromic:
it is `(1 + z)^order` up to a factor), … -/
theorem C55_filter_partial (butter : ℚ → List ℝ × List ℝ) (order : ℕ) (hb : IsButter butter order)
    (hp : ∀ w, (butter w).1.reverse = (butter w).1) (s : List ℕ) (T : ℕ) (hT2 : T ≠ 2)
    (hT : order < T) (x y : ℕ → Ten s) (samplerate cutoff : ℚ) (hw0 : 0 < 2 * cutoff / samplerate) (hw1 : 2 * cutoff / samplerate < 1)
    (R : ℝ) (hy : FilterEq (butter (2 * cutoff / samplerate)).1 (butter (2 * cutoff / samplerate)).2 T (fun n => R • x n) y) :
    lowpassDetect butter ⟨s, samples T x⟩ samplerate cutoff R = .ok ⟨s, samples T y⟩ := by
  obtain ⟨z, h1, h2⟩ := detect_power butter order hb s T hT2 hT x samplerate cutoff hw0 hw1 R
  rw [hp] at h2
  rw [h1]
  congr 2
  exact samples_congr T _ _ fun k hk => filterEq_unique _ _ (by rw [hb.one]; exact one_ne_zero) T _ _ _ h2 hy k hk

/-- … the detected current is linear in the power, … -/
theorem C55_linear_partial (butter : ℚ → List ℝ × List ℝ) (order : ℕ) (hb : IsButter butter order) (s : List ℕ) (T : ℕ) (hT2 : T ≠ 2)
    (hT : order < T) (x x' : ℕ → Ten s) (c c' : ℝ) (samplerate cutoff : ℚ) (hw0 : 0 < 2 * cutoff / samplerate)
    (hw1 : 2 * cutoff / samplerate < 1) (R : ℝ) :
    ∃ y y', lowpassDetect butter ⟨s, samples T x⟩ samplerate cutoff R = .ok ⟨s, samples T y⟩ ∧
      lowpassDetect butter ⟨s, samples T x'⟩ samplerate cutoff R = .ok ⟨s, samples T y'⟩ ∧
      lowpassDetect butter ⟨s, samples T fun n => c • x n + c' • x' n⟩ samplerate cutoff R =
        .ok ⟨s, samples T fun n => c • y n + c' • y' n⟩ := by
  obtain ⟨y, h1, h2⟩ := detect_power butter order hb s T hT2 hT x samplerate cutoff hw0 hw1 R
  obtain ⟨y', h1', h2'⟩ := detect_power butter order hb s T hT2 hT x' samplerate cutoff hw0 hw1 R
  obtain ⟨z, h3, h4⟩ := detect_power butter order hb s T hT2 hT (fun n => c • x n + c' • x' n) samplerate cutoff hw0 hw1 R
  refine ⟨y, y', h1, h1', h3.trans ?_⟩
  have h5 := filterEq_linear _ _ T _ _ _ _ c c' h2 h2'
  have e : (fun n => c • R • x n + c' • R • x' n) = fun n => R • (c • x n + c' • x' n) := by
    funext n
    rw [smul_add, smul_comm R c, smul_comm R c']
  rw [e] at h5
  congr 2
  exact samples_congr T _ _ fun k hk => filterEq_unique _ _ (by rw [hb.one]; exact one_ne_zero) T _ _ _ h4 h5 k hk

/-- … causal, … -/
theorem C55_causal_partial (butter : ℚ → List ℝ × List ℝ) (order : ℕ) (hb : IsButter butter order) (s : List ℕ) (T m : ℕ) (hT2 : T ≠ 2)
    (hT : order < T) (x x' : ℕ → Ten s) (hx : ∀ k < m, x k = x' k) (samplerate cutoff : ℚ) (hw0 : 0 < 2 * cutoff / samplerate)
    (hw1 : 2 * cutoff / samplerate < 1) (R : ℝ) :
    ∃ y y', lowpassDetect butter ⟨s, samples T x⟩ samplerate cutoff R = .ok ⟨s, samples T y⟩ ∧
      lowpassDetect butter ⟨s, samples T x'⟩ samplerate cutoff R = .ok ⟨s, samples T y'⟩ ∧
      ∀ k < m, k < T → y k = y' k := by
  obtain ⟨y, h1, h2⟩ := detect_power butter order hb s T hT2 hT x samplerate cutoff hw0 hw1 R
  obtain ⟨y', h1', h2'⟩ := detect_power butter order hb s T hT2 hT x' samplerate cutoff hw0 hw1 R
  exact ⟨y, y', h1, h1', fun k hk hkT => filterEq_causal _ _ (by rw [hb.one]; exact one_ne_zero) T m _ _ _ _ h2 h2'
    (fun k hk => by rw [hx k hk]) k hk hkT⟩

/-- … and an amplitude (real and imaginary part) is detected like its power. -/
theorem C55_amplitude_partial (butter : ℚ → List ℝ × List ℝ) (s : List ℕ) (T : ℕ) (hT2 : T ≠ 2) (re im : Ten (T :: s))
    (samplerate cutoff : ℚ) (R : ℝ) :
    lowpassDetect butter ⟨T :: s, [re, im]⟩ samplerate cutoff R =
      lowpassDetect butter ⟨s, List.ofFn fun i => Ten.sq s (re i) + Ten.sq s (im i)⟩ samplerate cutoff R := by
  unfold lowpassDetect
  rw [toPower_of_ne s _ (by simpa using hT2)]
  rfl

/-- C55: a cutoff above the Nyquist frequency is rejected, also by the constructor. -/
theorem C55_nyquist (butter : ℚ → List ℝ × List ℝ) (x : Sig) (samplerate cutoff : ℚ) (hs : 0 < samplerate)
    (hw : samplerate / 2 < cutoff) (R : ℝ) :
    (∃ e, lowpassDetect butter x samplerate cutoff R = .error e) ∧ lowpassNew samplerate cutoff = .error .valueError ∧
    ∀ p, x.toPower = .ok p → lowpassDetect butter x samplerate cutoff R = .error .valueError := by
  have hw1 : 1 < 2 * cutoff / samplerate := by
    rw [lt_div_iff₀ hs]
    linarith
  have key : ∀ p, x.toPower = .ok p → lowpassDetect butter x samplerate cutoff R = .error .valueError := by
    intro p hp
    unfold lowpassDetect
    rw [hp]
    show Sig.lowpass butter _ samplerate cutoff = _
    unfold Sig.lowpass
    simp only
    rw [if_neg hs.ne', if_neg hw1.ne', if_pos hw1]
  refine ⟨?_, ?_, key⟩
  · cases hp : x.toPower with
    | error e =>
      refine ⟨e, ?_⟩
      unfold lowpassDetect
      rw [hp]
    | ok p => exact ⟨_, key p hp⟩
  · unfold lowpassNew
    rw [if_neg hs.ne', if_pos hw1]

/-- C55 is violated for power signals of exactly two time steps: they are taken for an amplitude, the time axis is lost. -/
theorem C55_violation (butter : ℚ → List ℝ × List ℝ) (n : ℕ) (s : List ℕ) (x y : Ten (n :: s)) (samplerate cutoff : ℚ) (R : ℝ)
    (out : Sig) (h : lowpassDetect butter ⟨n :: s, [x, y]⟩ samplerate cutoff R = .ok out) : out.shape = s := by
  unfold lowpassDetect at h
  change Sig.lowpass butter ⟨s, (List.ofFn (Ten.sq (n :: s) x + Ten.sq (n :: s) y : Ten (n :: s))).map fun r => R • r⟩
    samplerate cutoff = _ at h
  unfold Sig.lowpass at h
  simp only at h
  split_ifs at h
  · cases h; rfl
  · cases hl : lfilter (butter (2 * cutoff / samplerate)).1 (butter (2 * cutoff / samplerate)).2
        ((List.ofFn (Ten.sq (n :: s) x + Ten.sq (n :: s) y : Ten (n :: s))).map fun r => R • r) with
    | error e => rw [hl] at h; cases h
    | ok v => rw [hl] at h; cases h; rfl

/-- C73 is violated: a power signal with at most `order` time steps cannot be detected. -/
theorem C73_violation (butter : ℚ → List ℝ × List ℝ) (order : ℕ) (hb : IsButter butter order) (s : List ℕ) (x : List (Ten s))
    (hT2 : x.length ≠ 2) (hT : x.length ≤ order) (samplerate cutoff : ℚ) (hw0 : 0 < 2 * cutoff / samplerate)
    (hw1 : 2 * cutoff / samplerate < 1) (R : ℝ) : ∃ e, lowpassDetect butter ⟨s, x⟩ samplerate cutoff R = .error e := by
  unfold lowpassDetect
  rw [toPower_of_ne s _ hT2]
  show ∃ e, Sig.lowpass butter ⟨s, x.map fun r => R • r⟩ samplerate cutoff = _
  unfold Sig.lowpass
  simp only
  rw [if_neg (rate_ne hw0), if_neg hw1.ne, if_neg (not_lt.2 hw1.le), if_neg (not_le.2 hw0)]
  obtain ⟨e, he⟩ := C54_short_violation (butter (2 * cutoff / samplerate)).1 (butter (2 * cutoff / samplerate)).2
    (x.map fun r => R • r) (by rw [hb.num, List.length_map]; omega)
  exact ⟨e, by rw [he]; rfl⟩

/-! ## C74: noise -/

theorem map₂_zero (s : List ℕ) (f : ℝ → ℝ → ℝ) (hf : ∀ p, f p 0 = p) (x : Ten s) : Ten.map₂ f s x 0 = x := by
  induction s with
  | nil => exact hf x
  | cons n s ih => exact funext fun i => ih (x i)

theorem addNoise_zero (dark load : ℝ) (cutoff : ℚ) (x : Sig) : addNoise dark load cutoff x (List.replicate x.rows.length 0) = x := by
  unfold addNoise
  have : List.zipWith (fun r ξ => Ten.map₂ (fun p n => p + Real.sqrt (noiseVar dark load cutoff p) * n) x.shape r ξ) x.rows
      (List.replicate x.rows.length 0) = x.rows := by
    apply List.ext_getElem
    · simp
    · intro i h1 h2
      rw [List.getElem_zipWith, List.getElem_replicate]
      exact map₂_zero _ _ (by intro p; simp) _
  rw [this]

/-- C74: without noise a `Photodetector` detects (a signal that does not have two time steps) like a `LowpassDetector`, if its load is not
zero and no variance negative. -/
theorem C74_noiseless (butter : ℚ → List ℝ × List ℝ) (x p : Sig) (hp : x.toPower = .ok p) (h2 : p.rows.length ≠ 2)
    (samplerate cutoff : ℚ) (R dark load : ℝ) (hl : load ≠ 0) (hv : (p.scale R).real dark load cutoff) :
    photoDetect butter (fun _ n => List.replicate n 0) x samplerate cutoff R dark load =
      (lowpassDetect butter x samplerate cutoff R).map some := by
  unfold photoDetect lowpassDetect
  rw [hp]
  simp only
  rw [if_neg hl]
  have e := addNoise_zero dark load cutoff (p.scale R)
  have h2' : (p.scale R).rows.length ≠ 2 := fun h => h2 ((List.length_map (fun r : Ten p.shape => R • r)).symm.trans h)
  rw [e, toPower_of_ne _ _ h2']
  have e1 : (p.scale R).scale 1 = p.scale R := by
    unfold Sig.scale
    simp
  simp only [e1, if_pos hv]

theorem all_mono (P Q : ℝ → Prop) (h : ∀ p, P p → Q p) (s : List ℕ) (x : Ten s) (hx : Ten.all P s x) : Ten.all Q s x := by
  induction s with
  | nil => exact h x hx
  | cons n s ih => exact fun i => ih (x i) (hx i)

/-- No variance is negative if load, dark current and cutoff are not negative and all currents are not. -/
theorem real_of_nonneg (x : Sig) (dark load : ℝ) (cutoff : ℚ) (hd : 0 ≤ dark) (hl : 0 ≤ load) (hc : 0 ≤ cutoff)
    (hx : ∀ r ∈ x.rows, Ten.all (fun p => 0 ≤ p) x.shape r) : x.real dark load cutoff := by
  intro r hr
  refine all_mono _ _ ?_ _ _ (hx r hr)
  intro p hp
  have hc' : (0 : ℝ) ≤ cutoff := by exact_mod_cast hc
  unfold noiseVar
  simp only
  positivity

/-- Numbers come out of a photodetector only if its load is not zero and no variance negative. -/
theorem photo_some (butter : ℚ → List ℝ × List ℝ) (randn : (s : List ℕ) → ℕ → List (Ten s)) (x p out : Sig) (hp : x.toPower = .ok p)
    (samplerate cutoff : ℚ) (R dark load : ℝ) (h : photoDetect butter randn x samplerate cutoff R dark load = .ok (some out)) :
    load ≠ 0 ∧ (p.scale R).real dark load cutoff ∧
      lowpassDetect butter (addNoise dark load cutoff (p.scale R) (randn (p.scale R).shape (p.scale R).rows.length)) samplerate cutoff 1 = .ok out := by
  unfold photoDetect at h
  rw [hp] at h
  simp only at h
  split at h
  · cases h
  · rename_i hl
    refine ⟨hl, ?_⟩
    revert h
    cases lowpassDetect butter (addNoise dark load cutoff (p.scale R) (randn (p.scale R).shape (p.scale R).rows.length)) samplerate cutoff 1 with
    | error e => intro h; cases h
    | ok y =>
      intro h
      have h' := Except.ok.inj h
      split at h'
      · rename_i hv
        exact ⟨hv, congrArg Except.ok (Option.some.inj h')⟩
      · cases h'

/-- C74 is violated for amplitudes with exactly two time steps: `Photodetector` squares twice, the result has lost another axis. -/
theorem C74_violation (butter : ℚ → List ℝ × List ℝ) (n : ℕ) (s : List ℕ) (re im : Ten (2 :: n :: s)) (samplerate cutoff : ℚ)
    (R dark load : ℝ) (out : Sig)
    (h : photoDetect butter (fun _ n => List.replicate n 0) ⟨2 :: n :: s, [re, im]⟩ samplerate cutoff R dark load = .ok (some out)) :
    out.shape = s :=
  by
  have := (photo_some butter _ _ _ out rfl samplerate cutoff R dark load h).2.2
  exact C55_violation butter n s _ _ samplerate cutoff 1 out this

/-- C74 is violated for powers that are slightly negative somewhere (the filtered bits of a `BitStreamGenerator`, say): a `LowpassDetector`
detects them, a `Photodetector` gives `nan`. -/
theorem C74_nan_violation (butter : ℚ → List ℝ × List ℝ) (order : ℕ) (hb : IsButter butter order) (T : ℕ) (hT2 : T ≠ 2)
    (hT : order < T) (x : ℕ → ℝ) (t : ℕ) (ht : t < T) (hx : x t ≤ -1 / 1000) :
    (∃ y, lowpassDetect butter ⟨[], samples T (x : ℕ → Ten [])⟩ 160e9 20e9 1 = .ok y) ∧
      photoDetect butter (fun _ n => List.replicate n 0) ⟨[], samples T (x : ℕ → Ten [])⟩ 160e9 20e9 1 1e-10 166 = .ok none := by
  obtain ⟨y, hy, -⟩ := detect_power butter order hb [] T hT2 hT x 160e9 20e9 (by norm_num) (by norm_num) 1
  refine ⟨⟨_, hy⟩, ?_⟩
  have hs : (⟨[], samples T (x : ℕ → Ten [])⟩ : Sig).scale 1 = ⟨[], samples T (x : ℕ → Ten [])⟩ := by
    unfold Sig.scale
    simp
  unfold photoDetect
  rw [toPower_of_ne [] _ (by intro h; exact hT2 ((samples_length T (x : ℕ → Ten [])).symm.trans h))]
  simp only
  rw [if_neg (by norm_num), hs, addNoise_zero, hy]
  refine congrArg Except.ok (if_neg ?_)
  intro h
  have := h (x t) (List.mem_map.2 ⟨t, List.mem_range.2 ht, rfl⟩)
  have h2 : 0 ≤ noiseVar 1e-10 166 20e9 (x t) := this
  unfold noiseVar at h2
  norm_num at h2
  linarith

/-! ### Concrete instances -/

/-- A first-order filter. -/
noncomputable def firstOrder : ℚ → List ℝ × List ℝ := fun _ => ([1, 1], [1, -1 / 2])

theorem firstOrder_ok : IsButter firstOrder 1 := ⟨fun _ => rfl, fun _ => rfl, fun _ => rfl⟩

/-- Three steps of one channel. -/
example : ∃ y : List (Ten [1]), lowpassDetect firstOrder ⟨[1], [fun _ => (1 : ℝ), fun _ => (2 : ℝ), fun _ => (3 : ℝ)]⟩ 4 1 2 = .ok ⟨[1], y⟩ ∧ y.length = 3 :=
  C55_axis_partial firstOrder 1 firstOrder_ok [1] _ (by show 3 ≠ 2; decide) (by show 1 < 3; decide) 4 1 (by norm_num) (by norm_num) 2

example : ∃ e, lowpassDetect firstOrder ⟨[1], [fun _ => (1 : ℝ)]⟩ 4 1 2 = .error e :=
  C73_violation firstOrder 1 firstOrder_ok [1] _ (by show 1 ≠ 2; decide) (by show 1 ≤ 1; decide) 4 1 (by norm_num) (by norm_num) 2

/-- Two steps of three channels give three numbers instead of two steps of three channels. -/
example : ∃ out, lowpassDetect firstOrder ⟨[3], [fun _ => (1 : ℝ), fun _ => (2 : ℝ)]⟩ 4 1 1 = .ok out ∧ out.shape = [] := by
  obtain ⟨y, h, -⟩ := C55_axis_partial firstOrder 1 firstOrder_ok []
    (List.ofFn fun i : Fin 3 => Ten.sq [] (1 : ℝ) + Ten.sq [] (2 : ℝ)) (by simp) (by simp) 4 1 (by norm_num) (by norm_num) 1
  exact ⟨⟨[], y⟩, h, rfl⟩

/-- Four steps of two channels without noise. -/
example : photoDetect firstOrder (fun _ n => List.replicate n 0) ⟨[2], List.replicate 4 fun _ => (1 : ℝ)⟩ 4 1 2 0 1 =
    (lowpassDetect firstOrder ⟨[2], List.replicate 4 fun _ => (1 : ℝ)⟩ 4 1 2).map some :=
  C74_noiseless firstOrder _ _ (toPower_of_ne [2] _ (by show 4 ≠ 2; decide)) (by show 4 ≠ 2; decide) 4 1 2 0 1 one_ne_zero
    (real_of_nonneg _ _ _ _ le_rfl zero_le_one (by norm_num) (by
      intro r hr
      have : r = (2 : ℝ) • (fun _ => (1 : ℝ) : Ten [2]) := by
        obtain ⟨v, hv, rfl⟩ := List.mem_map.1 hr
        rw [List.eq_of_mem_replicate hv]
        rfl
      rw [this]
      intro i
      show (0 : ℝ) ≤ 2 * 1
      norm_num))

example : lowpassNew 4 3 = .error .valueError := (C55_nyquist firstOrder ⟨[], []⟩ 4 3 (by norm_num) (by norm_num) 1).2.1

/-! ## Examples of use -/

/-- A constant light level through the first-order filter: any solution of the difference equation is the output. -/
example (y : ℕ → Ten []) (hy : FilterEq (firstOrder (2 * 1 / 4)).1 (firstOrder (2 * 1 / 4)).2 5 (fun _ => (2 : ℝ) • (1 : ℝ)) y) :
    lowpassDetect firstOrder ⟨[], samples 5 fun _ => (1 : ℝ)⟩ 4 1 2 = .ok ⟨[], samples 5 y⟩ :=
  C55_filter_partial firstOrder 1 firstOrder_ok (fun _ => rfl) [] 5 (by norm_num) (by norm_num) _ y 4 1 (by norm_num) (by norm_num) 2 hy

example (x x' : ℕ → Ten [2]) : ∃ y y', lowpassDetect firstOrder ⟨[2], samples 5 x⟩ 4 1 2 = .ok ⟨[2], samples 5 y⟩ ∧
    lowpassDetect firstOrder ⟨[2], samples 5 x'⟩ 4 1 2 = .ok ⟨[2], samples 5 y'⟩ ∧
    lowpassDetect firstOrder ⟨[2], samples 5 fun n => (3 : ℝ) • x n + (4 : ℝ) • x' n⟩ 4 1 2 =
      .ok ⟨[2], samples 5 fun n => (3 : ℝ) • y n + (4 : ℝ) • y' n⟩ :=
  C55_linear_partial firstOrder 1 firstOrder_ok [2] 5 (by norm_num) (by norm_num) x x' 3 4 4 1 (by norm_num) (by norm_num) 2

/-- A change at the last of five samples is seen in the last output only. -/
example (x : ℕ → Ten []) (z : Ten []) : ∃ y y', lowpassDetect firstOrder ⟨[], samples 5 x⟩ 4 1 2 = .ok ⟨[], samples 5 y⟩ ∧
    lowpassDetect firstOrder ⟨[], samples 5 fun k => if k = 4 then z else x k⟩ 4 1 2 = .ok ⟨[], samples 5 y'⟩ ∧
    ∀ k < 4, k < 5 → y k = y' k :=
  C55_causal_partial firstOrder 1 firstOrder_ok [] 5 4 (by norm_num) (by norm_num) _ _ (fun k hk => (if_neg (by omega)).symm) 4 1
    (by norm_num) (by norm_num) 2

example (re im : Ten [5]) : lowpassDetect firstOrder ⟨[5], [re, im]⟩ 4 1 2 =
    lowpassDetect firstOrder ⟨[], List.ofFn fun i => Ten.sq [] (re i) + Ten.sq [] (im i)⟩ 4 1 2 :=
  C55_amplitude_partial firstOrder [] 5 (by norm_num) re im 4 1 2

end PT
