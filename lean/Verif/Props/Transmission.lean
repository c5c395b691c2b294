import Verif.Spec.Transmission
import Verif.Props.Noise

/-!
# C127: a link transmits bits
-/

namespace PT
open Spec Matrix Finset

variable {W B : Type}

/-! ### The circuit -/

namespace Line

def conns : List Conn := [.inner "src".toList 0 "wg".toList 0, .inner "wg".toList 1 "det".toList 0]

theorem conns_eq : (∀ l ∈ lineLinks, (linkConns l).2 = .ok ()) ∧
    (lineLinks.flatMap fun l => (linkConns l).1) = conns.map Conn.text := by
  decide +kernel

noncomputable def parts (z : Wg) : List Part := [.source, z.part, .detector]

def pairs : List (ℕ × ℕ) := [(0, 1), (2, 3)]

theorem wired (z : Wg) : ∃ d, LinkedNet (lineModules z) lineLinks d ∧ MadeOf (fun _ => True) d ∧ Wired d (parts z) pairs := by
  obtain ⟨d, h1, h2, h3⟩ := wired_net (lineModules z)
    [("src".toList, .source), ("wg".toList, z.part), ("det".toList, .detector)] conns
    [("src".toList, source), ("wg".toList, passive 2), ("det".toList, detector)]
    [("src".toList, source), ("wg".toList, passive 2), ("det".toList, detector)]
    pairs rfl rfl (by
      intro p hp
      simp only [lineModules, List.mem_cons, List.not_mem_nil, or_false] at hp
      rcases hp with rfl | rfl | rfl
      · exact Nat.one_pos
      · exact Nat.two_pos
      · exact Nat.one_pos) (goodConns_dec (by decide +kernel)) ⟨by decide +kernel, by decide +kernel⟩
    ⟨by decide +kernel, by decide +kernel, by decide +kernel⟩ (by
      have h : usedNames ((conns.map Conn.text).map stripConn) = ["src".toList, "wg".toList, "det".toList] := by decide +kernel
      rw [h]
      rfl) (by decide +kernel)
  exact ⟨d, ⟨conns_eq.1, by rw [conns_eq.2]; exact h1⟩, h2, h3⟩

theorem marks {z : Wg} {d : Dev} (h : Wired d (parts z) pairs) :
    (portsWith fun i : Fin d.comp.n => d.comp.src.getD i false).map Fin.val = [0] ∧
    (portsWith fun i : Fin d.comp.n => d.comp.det.getD i false).map Fin.val = [3] :=
  ⟨portsWith_vals _ 4 _ [true, false, false, false] _ h.flat.n h.flat.src rfl,
    portsWith_vals _ 4 _ [false, false, false, true] _ h.flat.n h.flat.det rfl⟩

theorem init {z : Wg} {d : Dev} (h : Wired d (parts z) pairs) (v : ℝ) (wl : W → ℝ) (env : SimEnv) :
    ∃ r, initNet (d.plant v wl) env = .ok (some r) := by
  refine h.init v wl env (i₀ := 0) (k₀ := 0) (p₀ := .source) (i₀' := 0) rfl (.inl rfl) fun w U Y hout hl hr hin => ?_
  obtain ⟨u0, y0⟩ := hout (i := 0) (k := 0) (p := .source) (i' := 0) rfl (.inl rfl)
  obtain ⟨u3, y3⟩ := hout (i := 3) (k := 2) (p := .detector) (i' := 0) rfl (.inr (.inl rfl))
  have h1 : U 1 = 0 ∧ U 2 = 0 := by
    by_cases hz : Remembers env v z.part
    · have a := hout (i := 1) (k := 1) (p := z.part) (i' := 0) rfl hz
      have b := hout (i := 2) (k := 1) (p := z.part) (i' := 1) rfl hz
      exact ⟨a.1, b.1⟩
    · have c := hr (0, 1) (by simp [pairs]) (k := 1) (p := z.part) (i' := 0) rfl hz
      have e := hl (2, 3) (by simp [pairs]) (k := 1) (p := z.part) (i' := 1) rfl hz
      exact ⟨c.trans y0, e.trans y3⟩
  obtain ⟨u1, u2⟩ := h1
  intro i hi
  have hi' : i < 4 := hi
  interval_cases i <;> assumption

theorem time (z : Wg) {d : Dev} (hM : MadeOf (fun _ => True) d) (h : Wired d (parts z) pairs) (v : ℝ) (wl : W → ℝ) (env : SimEnv)
    (dt : ℝ) (hf : env.freqdomain = false) (hdt : env.dt = some dt) (hpos : 0 < dt) :
    ∃ r, initNet (d.plant v wl) env = .ok (some r) ∧
      ∀ (cs : List (Actor W B)) (src : ℕ → ℕ → W → B → ℝ × ℝ), ∃ out, forwardReduced r env cs src = .ok out ∧
        out.length = env.t.length ∧ ∀ n (hn : n < out.length) w b, (out[n] w b).map asComplex =
          [z.amp (wl w) * past (fun m => asComplex (src m 0 w b)) n (z.steps v dt)] := by
  obtain ⟨m1, m2⟩ := marks h
  obtain ⟨r, hr⟩ := init h v wl env
  refine ⟨r, hr, fun cs src => ?_⟩
  obtain ⟨out, ho, hlen, H⟩ := h.steps hM v wl env dt hdt hpos hf _ _ m1 m2 (by simp) r hr cs src
  refine ⟨out, ho, hlen, fun n hn w b => ?_⟩
  obtain ⟨A, B', hl, hb, he, hout⟩ := H w b
  rw [hout n hn]
  show [A n 3] = _
  congr 1
  have hwg : ∀ q < z.part.n, z.part.comp.src.getD q false = false ∧ z.part.comp.det.getD q false = false := by
    intro q hq
    have : q < 2 := hq
    interval_cases q <;> exact ⟨rfl, rfl⟩
  generalize hs : (fun m => asComplex (src m 0 w b)) = s
  have hT : ∀ m, m ≤ n → m < env.t.length := fun m hm => by omega
  have b0 : ∀ m ≤ n, B' m 0 = s m := fun m hm => by
    have := he m (hT m hm) (i := 0) (k := 0) (p := .source) (i' := 0) rfl fun q _ => end_entry.1 _ _ _
    rw [this, ← hs]
    rfl
  have b2 : ∀ m ≤ n, B' m 2 = z.amp (wl w) * past (fun m => A m 1) m (z.steps v dt) := fun m hm => by
    have := hb m (hT m hm) (i := 2) (k := 1) (p := z.part) (i' := 1) rfl fun q hq => ⟨by
      have : q < 2 := hq
      interval_cases q <;> rfl, hwg q hq⟩
    rw [(wg_sum z (wl w) _).2, wg_delay] at this
    simpa using this
  have l3 : ∀ m ≤ n, A m 3 = B' m 2 := fun m hm => (hl m (hT m hm) (2, 3) (by simp [pairs])).2
  have l1 : ∀ m ≤ n, A m 1 = s m := fun m hm => ((hl m (hT m hm) (0, 1) (by simp [pairs])).2).trans (b0 m hm)
  rw [l3 n le_rfl, b2 n le_rfl, past_congr _ l1]

end Line

/-! ### The eye -/

/-- The current of a detector follows a power that has been constant for a while: how long it takes depends on the filter and on the
precision only, not on the signal before, the sample rate or the number of channels. -/
theorem C127_eye (N : ℕ) (hN : 0 < N) (w : ℚ) (hw0 : 0 < w) (hw1 : w < 1) (ε : ℝ) (hε : 0 < ε) :
    ∃ k : ℕ, ∀ samplerate cutoff : ℚ, 2 * cutoff / samplerate = w → ∀ (s : List ℕ) (T : ℕ), N < T → T ≠ 2 → ∀ (R : ℝ) (x : ℕ → Ten s),
      ∃ y, lowpassDetect (fun w => butterworth N (w : ℝ)) ⟨s, samples T x⟩ samplerate cutoff R = .ok ⟨s, samples T y⟩ ∧
        ∀ (q : Pos s) (n : ℕ), n < T → k ≤ n → ∀ M c : ℝ, (∀ j ≤ n, |entry s q (x j)| ≤ M) →
          (∀ j ≤ k, entry s q (x (n - j)) = c) → |entry s q (y n) - R * c| ≤ ε * (|R| * M) := by
  have hw := warp_pos (w : ℝ) (by exact_mod_cast hw0) (by exact_mod_cast hw1)
  have hf := fun T => filterOut_eq (butterworth N (w : ℝ)).1 (butterworth N (w : ℝ)).2 (butterworth_one N _) T pulse
  set h := filterOut (butterworth N (w : ℝ)).1 (butterworth N (w : ℝ)).2 pulse with hh
  obtain ⟨g, hg, C, r, hr0, hr1, hC⟩ := constant_real N hN (w : ℝ) hw
  -- the response to a constant
  have hgh : ∀ n, g n = ∑ k ∈ range (n + 1), h k := by
    intro n
    have h1 := convolution_filter _ _ h hf (fun _ => (1 : ℝ)) (n + 1)
    have := filterEq_unique _ _ (by rw [butterworth_one]; norm_num) (n + 1) _ _ _ (hg (n + 1)) h1 n (by omega)
    rw [this]
    simp only [smul_eq_mul, mul_one]
    rw [← Finset.sum_range_reflect]
    apply sum_congr rfl
    intro k hk
    congr 1
    have := mem_range.1 hk
    omega
  have hC0 : 0 ≤ C := by
    have := (abs_nonneg _).trans (hC 0)
    simpa using this
  have hd : 0 < 1 - r := by linarith
  have hstep : ∀ j, |h (j + 1)| ≤ 2 * C * r ^ j := by
    intro j
    have e : h (j + 1) = (g (j + 1) - 1) - (g j - 1) := by
      rw [hgh (j + 1), sum_range_succ, ← hgh j]
      ring
    have h1 := hC (j + 1)
    have h2 := hC j
    have h3 : C * r ^ (j + 1) ≤ C * r ^ j := mul_le_mul_of_nonneg_left (pow_le_pow_of_le_one hr0 hr1.le (by omega)) hC0
    rw [e]
    have := abs_sub (g (j + 1) - 1) (g j - 1)
    linarith
  have hgeo : ∀ m, ∑ j ∈ range m, r ^ j ≤ 1 / (1 - r) := by
    intro m
    have := Summable.sum_le_tsum (range m) (fun j _ => pow_nonneg hr0 j) (summable_geometric_of_lt_one hr0 hr1)
    rwa [tsum_geometric_of_lt_one hr0 hr1, ← one_div] at this
  obtain ⟨k, hk⟩ := exists_pow_lt_of_lt_one (show 0 < ε * (1 - r) / (5 * C + 1) by positivity) hr1
  refine ⟨k, ?_⟩
  intro samplerate cutoff hcut s T hT hT2 R x
  refine ⟨fun n => ∑ k ∈ range (n + 1), h (n - k) • R • x k, ?_, ?_⟩
  · exact C55_filter_partial _ N (butterworth_ok N) (fun w => butterworth_palindrome N w) s T hT2 hT _ _ samplerate cutoff
      (by rw [hcut]; exact hw0) (by rw [hcut]; exact hw1) R (by rw [hcut]; exact convolution_filter _ _ h hf _ T)
  intro q n hn hkn M c hM hc
  have hM0 : 0 ≤ M := (abs_nonneg _).trans (hM 0 (by omega))
  have hcM : |c| ≤ M := by
    rw [← hc 0 (by omega)]
    exact hM _ (by omega)
  have e1 : entry s q (∑ k ∈ range (n + 1), h (n - k) • R • x k) = R * ∑ j ∈ range (n + 1), h j * entry s q (x (n - j)) := by
    rw [map_sum, mul_sum, ← Finset.sum_range_reflect]
    apply sum_congr rfl
    intro j hj
    have := mem_range.1 hj
    have e : n - (n + 1 - 1 - j) = j := by omega
    have e' : n + 1 - 1 - j = n - j := by omega
    rw [e, e', map_smul, map_smul, smul_eq_mul, smul_eq_mul]
    ring
  have e2 : ∑ j ∈ range (n + 1), h j * entry s q (x (n - j)) - c =
      c * (g n - 1) + ∑ i ∈ range (n - k), h (k + 1 + i) * (entry s q (x (n - (k + 1 + i))) - c) := by
    have : ∑ j ∈ range (n + 1), h j * entry s q (x (n - j)) = c * g n + ∑ j ∈ range (n + 1), h j * (entry s q (x (n - j)) - c) := by
      rw [hgh, mul_sum, ← sum_add_distrib]
      apply sum_congr rfl
      intros
      ring
    rw [this, show n + 1 = (k + 1) + (n - k) by omega, sum_range_add]
    rw [sum_eq_zero (s := range (k + 1)) fun j hj => by
      rw [hc j (by have := mem_range.1 hj; omega), sub_self, mul_zero]]
    ring
  have b1 : |∑ i ∈ range (n - k), h (k + 1 + i) * (entry s q (x (n - (k + 1 + i))) - c)| ≤ 4 * C * M * r ^ k * (1 / (1 - r)) := by
    calc |∑ i ∈ range (n - k), h (k + 1 + i) * (entry s q (x (n - (k + 1 + i))) - c)|
        ≤ ∑ i ∈ range (n - k), |h (k + 1 + i) * (entry s q (x (n - (k + 1 + i))) - c)| := abs_sum_le_sum_abs _ _
      _ ≤ ∑ i ∈ range (n - k), 4 * C * M * r ^ k * r ^ i := by
        apply sum_le_sum
        intro i _
        have a1 := hstep (k + i)
        rw [show k + i + 1 = k + 1 + i by omega] at a1
        have a2 : |entry s q (x (n - (k + 1 + i))) - c| ≤ 2 * M := by
          have := abs_sub (entry s q (x (n - (k + 1 + i)))) c
          have := hM (n - (k + 1 + i)) (by omega)
          linarith
        rw [abs_mul]
        calc _ ≤ (2 * C * r ^ (k + i)) * (2 * M) := mul_le_mul a1 a2 (abs_nonneg _) (by positivity)
          _ = _ := by rw [pow_add]; ring
      _ = 4 * C * M * r ^ k * ∑ i ∈ range (n - k), r ^ i := by rw [mul_sum]
      _ ≤ _ := mul_le_mul_of_nonneg_left (hgeo _) (by positivity)
  have b2 : |c * (g n - 1)| ≤ C * M * r ^ k * (1 / (1 - r)) := by
    rw [abs_mul]
    have a1 := hC n
    have a2 : r ^ n ≤ r ^ k := pow_le_pow_of_le_one hr0 hr1.le hkn
    have a3 : (1 : ℝ) ≤ 1 / (1 - r) := by rw [le_div_iff₀ hd]; linarith
    calc |c| * |g n - 1| ≤ M * (C * r ^ n) := mul_le_mul hcM a1 (abs_nonneg _) hM0
      _ ≤ M * (C * r ^ k) := mul_le_mul_of_nonneg_left (mul_le_mul_of_nonneg_left a2 hC0) hM0
      _ = C * M * r ^ k * 1 := by ring
      _ ≤ _ := mul_le_mul_of_nonneg_left a3 (by positivity)
  have b3 : |∑ j ∈ range (n + 1), h j * entry s q (x (n - j)) - c| ≤ ε * M := by
    rw [e2]
    refine (abs_add_le _ _).trans ((add_le_add b2 b1).trans ?_)
    have hk' : r ^ k * (5 * C + 1) ≤ ε * (1 - r) := by
      rw [lt_div_iff₀ (by positivity)] at hk
      exact hk.le
    have hk2 : 5 * C * r ^ k ≤ ε * (1 - r) := by
      have := pow_nonneg hr0 k
      linarith
    have : C * M * r ^ k * (1 / (1 - r)) + 4 * C * M * r ^ k * (1 / (1 - r)) = M * (5 * C * r ^ k / (1 - r)) := by ring
    rw [this, mul_comm ε]
    apply mul_le_mul_of_nonneg_left _ hM0
    rw [div_le_iff₀ hd]
    exact hk2
  show |entry s q (∑ k ∈ range (n + 1), h (n - k) • R • x k) - R * c| ≤ _
  rw [e1, ← mul_sub, abs_mul]
  calc |R| * _ ≤ |R| * (ε * M) := mul_le_mul_of_nonneg_left b3 (abs_nonneg _)
    _ = _ := by ring

/-! ### Decisions -/

section Decide

variable {ι : Type} [Fintype ι]

/-- The bit error rate of a signal: the fraction of the bits for which the sample in the middle of the bit is on the wrong side of the
threshold; with the latency of `D` samples the samples are taken `D` samples later.  (No channel of the target may be constantly one,
see C51.) -/
theorem C127_rate [Nonempty ι] (bits : List (ι → Bool)) (m B : ℕ) (hm : 0 < m) (hB : 0 < B)
    (hz : ∀ i, ∃ r ∈ bits, r i = false) (rng : ℕ → List (ι → ℝ)) (butter : ℚ → List ℝ × List ℝ) :
    ∃ target, bitStream rng butter (.array (bitRows bits)) B (m * B : ℕ) none = .ok target ∧
      ∀ D, m / 2 + D < bits.length * m → ∀ (p : ℕ → ι → ℝ) (threshold : ℝ), berLoss (samples (bits.length * m) p) target threshold (D * B / (m * B : ℕ)) (0 : ℕ) B (m * B : ℕ) =
        .ok (some ((∑ j ∈ range (bitsReceived (bits.length * m) m D), ∑ i,
          open Classical in if (threshold < p (j * m + m / 2 + D) i ↔ bits.getD j (fun _ => false) i = true) then (0 : ℝ) else 1) /
            (bitsReceived (bits.length * m) m D * Fintype.card ι))) := by
  classical
  refine ⟨_, bit_stream rng butter _ B m hB hm, fun D hT p threshold => ?_⟩
  have l1 : (bitRows bits).length = bits.length := List.length_map _
  rw [l1]
  set T := bits.length * m with hTdef
  set t : ℕ → ι → ℝ := fun j => (bitRows bits).getD (j / m) 0 with ht
  have ht01 : ∀ j i, t j i = if bits.getD (j / m) (fun _ => false) i then 1 else 0 := fun j i => bitRows_getD _ _ _
  have hS : 0 < m * B := Nat.mul_pos hm hB
  have hg : Nat.gcd (m * B) B = B := Nat.gcd_mul_left_left m B
  have hrs : m * B / Nat.gcd (m * B) B = m := by rw [hg, Nat.mul_div_cancel _ hB]
  have hrb : B / Nat.gcd (m * B) B = 1 := by rw [hg, Nat.div_self hB]
  have hl : toRate ((D : ℚ) * B / (m * B : ℕ) * (m * B / Nat.gcd (m * B) B : ℕ)) = (D : ℤ) := by
    rw [hrs]
    have hB' : (B : ℚ) ≠ 0 := by exact_mod_cast hB.ne'
    have hm' : (m : ℚ) ≠ 0 := by exact_mod_cast hm.ne'
    have e : (D : ℚ) * B / (m * B : ℕ) * (m : ℕ) = (D : ℕ) := by push_cast; field_simp
    rw [e, toRate_nat]
  have hw := warmup_whole 0 (m * B / Nat.gcd (m * B) B)
  rw [Nat.zero_mul] at hw
  have := ber_formula T B (m * B) 0 D hB hS p t threshold (D * B / (m * B : ℕ)) (0 : ℕ) hl hw (by positivity)
  simp only [hrs, hrb, Nat.div_one, Nat.mul_one, Nat.zero_add] at this
  rw [this]
  have eb : (((m / 2 : ℕ) : ℤ) + (D : ℤ)).toNat = m / 2 + D := by omega
  rw [eb]
  have hpos : 0 < (T - (m / 2 + D) + m - 1) / m := Nat.div_pos (by omega) hm
  have hle : (T - (m / 2 + D) + m - 1) / m ≤ (T - m / 2 + m - 1) / m := Nat.div_le_div_right (by omega)
  rw [Nat.min_eq_right hle, samples_mean _ _ hpos]
  unfold bitsReceived
  congr 3
  apply sum_congr rfl
  intro j hj
  apply sum_congr rfl
  intro i _
  rw [mem_range, Nat.lt_div_iff_mul_lt hm] at hj
  have hjT : m / 2 + j * m < T := by omega
  have hdiv : (m / 2 + j * m) / m = j := by
    rw [Nat.add_mul_div_right _ _ hm, Nat.div_eq_of_lt (Nat.div_lt_self hm (by omega)), Nat.zero_add]
  obtain ⟨r, hr, hri⟩ := hz i
  obtain ⟨z, hz, rfl⟩ := List.mem_iff_getElem.1 hr
  have hzT : z * m < T := Nat.mul_lt_mul_of_pos_right hz hm
  have hs := target_sign T t i (fun k _ => by rw [ht01]; split <;> simp) (z * m) hzT (by
    rw [ht01, Nat.mul_div_cancel _ hm, List.getD_eq_getElem?_getD, List.getElem?_eq_getElem hz]
    simp [hri]) _ hjT
  have e : m / 2 + D + j * m = j * m + m / 2 + D := by omega
  rw [e]
  unfold wrongBit
  have hb : (t (m / 2 + j * m) i = 1) ↔ bits.getD j (fun _ => false) i = true := by
    rw [ht01, hdiv]
    split <;> simp [*]
  by_cases hd : threshold < p (j * m + m / 2 + D) i ↔ bits.getD j (fun _ => false) i = true
  · rw [if_pos hd, if_neg]
    rw [not_not, decide_eq_decide, hs, hb]
    exact hd
  · rw [if_neg hd, if_pos]
    rw [ne_eq, decide_eq_decide, hs, hb]
    exact hd

end Decide

/-! ### The link -/

theorem Spec.Wg.transmission_pos (z : Wg) : 0 < z.transmission := by
  unfold Wg.transmission
  positivity

theorem Spec.Wg.amp_sq (z : Wg) (wl : ℝ) : ‖z.amp wl‖ ^ 2 = z.transmission := by
  unfold Wg.amp Wg.transmission
  rw [norm_mul, Complex.norm_exp_ofReal_mul_I, mul_one, Complex.norm_real, Real.norm_eq_abs, sq_abs, ← Real.rpow_natCast, ← Real.rpow_mul (by norm_num)]
  congr 1
  push_cast
  ring

/-- **C127**. A source, a waveguide and a detector: the detected power is the power of the source, attenuated and delayed by a whole number
of time steps. -/
theorem C127_line (z : Wg) : ∃ d, LinkedNet (lineModules z) lineLinks d ∧ ∀ (W B : Type) (v : ℝ) (wl : W → ℝ) (env : SimEnv) (dt : ℝ),
    env.freqdomain = false → env.dt = some dt → 0 < dt → ∃ r, initNet (d.plant v wl) env = .ok (some r) ∧
      ∀ (cs : List (Actor W B)) (src : ℕ → ℕ → W → B → ℝ × ℝ), forwardPower r env cs src = .ok (samples env.t.length fun n w b =>
        [if n < z.steps v dt then 0 else z.transmission * ((src (n - z.steps v dt) 0 w b).1 ^ 2 + (src (n - z.steps v dt) 0 w b).2 ^ 2)]) := by
  obtain ⟨d, hd, hM, h⟩ := Line.wired z
  refine ⟨d, hd, fun W B v wl env dt hf hdt hpos => ?_⟩
  obtain ⟨r, hr, H⟩ := Line.time z hM h v wl env dt hf hdt hpos
  refine ⟨r, hr, fun cs src => ?_⟩
  obtain ⟨out, ho, hol, Ho⟩ := H cs src
  unfold forwardPower
  rw [ho]
  refine congrArg Except.ok (List.ext_getElem (by rw [List.length_map, hol]; simp [samples]) fun n hn hn' => ?_)
  rw [List.getElem_map, samples_at]
  funext w b
  have hno : n < out.length := by rwa [List.length_map] at hn
  obtain ⟨u, hu, hu'⟩ := single_of (Ho n hno w b)
  rw [hu]
  show [u.1 ^ 2 + u.2 ^ 2] = _
  have hnorm : ∀ u : ℝ × ℝ, u.1 ^ 2 + u.2 ^ 2 = ‖asComplex u‖ ^ 2 := by
    intro u
    rw [← Complex.normSq_eq_norm_sq, Complex.normSq_apply]
    show _ = u.1 * u.1 + u.2 * u.2
    ring
  rw [hnorm, hu', norm_mul, mul_pow, Spec.Wg.amp_sq]
  unfold past
  by_cases hD : n < z.steps v dt
  · rw [if_pos hD, if_neg (by omega)]
    simp
  · rw [if_neg hD, if_pos (by omega), hnorm]

/-- The detected powers of a stream of bits. -/
theorem line_bits (z : Wg) : ∃ d, LinkedNet (lineModules z) lineLinks d ∧ ∀ (nw b m B : ℕ), 0 < m → 0 < B → ∀ (v : ℝ) (wl : Fin nw → ℝ)
    (env : SimEnv) (bits : List (Fin b → Bool)), env.freqdomain = false → env.dt = some (1 / (m * B : ℝ)) → env.t.length = bits.length * m →
    ∀ (rng : ℕ → List (Fin b → ℝ)) (butter : ℚ → List ℝ × List ℝ), ∃ r stream, initNet (d.plant v wl) env = .ok (some r) ∧
      bitStream rng butter (.array (bitRows bits)) B (m * B : ℕ) none = .ok stream ∧
      ∀ cs : List (Actor (Fin nw) (Fin b)), ∃ out, forwardPower r env cs (fun n _ _ i => (stream.getD n 0 i, 0)) = .ok out ∧
        out.map (powers 1) = samples (bits.length * m) fun n => (fun _ _ i =>
          if z.steps v (1 / (m * B : ℝ)) ≤ n ∧ bits.getD ((n - z.steps v (1 / (m * B : ℝ))) / m) (fun _ => false) i = true then
            z.transmission else 0 : Ten [nw, 1, b]) := by
  obtain ⟨d, hd, H⟩ := C127_line z
  refine ⟨d, hd, fun nw b m B hm hB v wl env bits hf hdt hT rng butter => ?_⟩
  have hBr : (0 : ℝ) < B := by exact_mod_cast hB
  have hmr : (0 : ℝ) < m := by exact_mod_cast hm
  obtain ⟨r, hr, H⟩ := H (Fin nw) (Fin b) v wl env _ hf hdt (by positivity)
  refine ⟨r, _, hr, bit_stream rng butter _ B m hB hm, fun cs => ⟨_, H cs _, ?_⟩⟩
  have l1 : (bitRows bits).length = bits.length := List.length_map _
  rw [samples_map, hT, l1]
  refine samples_congr _ _ _ fun n hn => ?_
  set D := z.steps v (1 / (m * B : ℝ))
  funext w k i
  obtain rfl : k = 0 := Subsingleton.elim _ _
  show (if n < D then 0 else z.transmission * (((samples (bits.length * m) fun j => (bitRows bits).getD (j / m) 0).getD (n - D) 0 i) ^ 2 +
    (0 : ℝ) ^ 2)) = if D ≤ n ∧ bits.getD ((n - D) / m) (fun _ => false) i = true then z.transmission else 0
  by_cases hD : n < D
  · rw [if_pos hD, if_neg (by omega)]
  · have e : (samples (bits.length * m) fun j => (bitRows bits).getD (j / m) 0).getD (n - D) 0 i =
        if bits.getD ((n - D) / m) (fun _ => false) i then 1 else 0 := by
      unfold samples
      rw [List.getD_eq_getElem?_getD, List.getElem?_map, List.getElem?_range (by omega), Option.map_some, Option.getD_some, bitRows_getD]
    rw [if_neg hD, e]
    have hD' : D ≤ n := by omega
    by_cases hb : bits.getD ((n - D) / m) (fun _ => false) i = true
    · rw [if_pos hb, if_pos ⟨hD', hb⟩]
      ring
    · rw [if_neg hb, if_neg fun h => hb h.2]
      ring

/-- **C127**. The link with a low-pass detector transmits bits without errors, whatever the bits, if the threshold is between the currents of
the two bits, and if there are enough samples per bit for the filter; how many depends on the filter, the loss, the responsivity and
the threshold. -/
theorem C127_open (N : ℕ) (hN : 0 < N) (w : ℚ) (hw0 : 0 < w) (hw1 : w < 1) (z : Wg) (R threshold : ℝ) (hθ : 0 < threshold)
    (hR : threshold < R * z.transmission) :
    ∃ d, LinkedNet (lineModules z) lineLinks d ∧ ∃ m₀ : ℕ, ∀ m ≥ m₀, ∀ (nw b B : ℕ), 0 < b → 0 < B → ∀ (v : ℝ) (wl : Fin nw → ℝ)
      (env : SimEnv) (bits : List (Fin b → Bool)), env.freqdomain = false → env.dt = some (1 / (m * B : ℝ)) → env.t.length = bits.length * m →
      m / 2 + z.steps v (1 / (m * B : ℝ)) < bits.length * m → (∀ i, ∃ r ∈ bits, r i = false) →
      ∀ (rng : ℕ → List (Fin b → ℝ)) (butter : ℚ → List ℝ × List ℝ), ∃ r stream, initNet (d.plant v wl) env = .ok (some r) ∧
        bitStream rng butter (.array (bitRows bits)) B (m * B : ℕ) none = .ok stream ∧
        ∀ cs : List (Actor (Fin nw) (Fin b)), ∃ out cur, forwardPower r env cs (fun n _ _ i => (stream.getD n 0 i, 0)) = .ok out ∧
          lowpassDetect (fun w => butterworth N (w : ℝ)) ⟨[nw, 1, b], out.map (powers 1)⟩ (m * B : ℕ) (w * (m * B : ℕ) / 2) R =
            .ok ⟨[nw, 1, b], cur⟩ ∧
          ∀ q : Fin nw, berLoss (channel cur q 0) stream threshold (z.steps v (1 / (m * B : ℝ)) * B / (m * B : ℕ)) (0 : ℕ) B (m * B : ℕ) =
            .ok (some 0) := by
  obtain ⟨d, hd, H⟩ := line_bits z
  refine ⟨d, hd, ?_⟩
  have hα := z.transmission_pos
  have hRα : 0 < R * z.transmission := hθ.trans hR
  have hR0 : 0 < R := pos_of_mul_pos_left hRα hα.le
  set ε := min ((R * z.transmission - threshold) / 2) threshold / (R * z.transmission) with hε
  have hε0 : 0 < ε := div_pos (lt_min (by linarith) hθ) hRα
  have hε1 : ε * (R * z.transmission) = min ((R * z.transmission - threshold) / 2) threshold := by rw [hε, div_mul_cancel₀ _ hRα.ne']
  obtain ⟨k, hk⟩ := C127_eye N hN w hw0 hw1 ε hε0
  refine ⟨2 * k + N + 3, fun m hm nw b B hb hB v wl env bits hf hdt hT hD hz rng butter => ?_⟩
  have hm0 : 0 < m := by omega
  obtain ⟨r, stream, hr, hs, H⟩ := H nw b m B hm0 hB v wl env bits hf hdt hT rng butter
  refine ⟨r, stream, hr, hs, fun cs => ?_⟩
  obtain ⟨out, ho, hp⟩ := H cs
  set D := z.steps v (1 / (m * B : ℝ))
  have hlen : 0 < bits.length := by
    by_contra h
    rw [show bits.length = 0 by omega] at hD
    omega
  have hTm : m ≤ bits.length * m := Nat.le_mul_of_pos_left m hlen
  have hS : ((m * B : ℕ) : ℚ) ≠ 0 := by exact_mod_cast (Nat.mul_pos hm0 hB).ne'
  obtain ⟨y, hy, hY⟩ := hk (m * B : ℕ) (w * (m * B : ℕ) / 2) (by field_simp) [nw, 1, b] (bits.length * m) (by omega) (by omega) R
    (fun n => (fun _ _ i => if D ≤ n ∧ bits.getD ((n - D) / m) (fun _ => false) i = true then z.transmission else 0 : Ten [nw, 1, b]))
  refine ⟨out, samples (bits.length * m) y, ho, by rw [hp]; exact hy, fun q => ?_⟩
  haveI : Nonempty (Fin b) := ⟨⟨0, hb⟩⟩
  have hch : channel (samples (bits.length * m) y) q 0 = samples (bits.length * m) fun n i => y n q 0 i := samples_map _ _ _
  rw [hch]
  obtain ⟨target, ht, hber⟩ := C127_rate bits m B hm0 hB hz rng butter
  rw [hs] at ht
  obtain rfl := Except.ok.inj ht
  refine (hber D hD (fun n i => y n q 0 i) threshold).trans ?_
  congr 2
  rw [div_eq_zero_iff]
  left
  refine sum_eq_zero fun j hj => sum_eq_zero fun i _ => if_pos ?_
  unfold bitsReceived at hj
  rw [mem_range, Nat.lt_div_iff_mul_lt hm0] at hj
  have key := hY (q, 0, i, ()) (j * m + m / 2 + D) (by omega) (by omega) z.transmission
    (if bits.getD j (fun _ => false) i = true then z.transmission else 0) (by
      intro n _
      show |if D ≤ n ∧ bits.getD ((n - D) / m) (fun _ => false) i = true then z.transmission else 0| ≤ z.transmission
      split
      · rw [abs_of_pos hα]
      · rw [abs_zero]; exact hα.le) (by
      intro l hl
      show (if D ≤ j * m + m / 2 + D - l ∧ bits.getD ((j * m + m / 2 + D - l - D) / m) (fun _ => false) i = true then z.transmission else 0) = _
      have e1 : D ≤ j * m + m / 2 + D - l := by omega
      have e2 : (j * m + m / 2 + D - l - D) / m = j := by
        have : j * m + m / 2 + D - l - D = (m / 2 - l) + j * m := by omega
        rw [this, Nat.add_mul_div_right _ _ hm0, Nat.div_eq_of_lt (by omega), Nat.zero_add]
      rw [e2]
      simp only [e1, true_and])
  obtain ⟨u, hu⟩ : ∃ u : ℝ, u = y (j * m + m / 2 + D) q 0 i := ⟨_, rfl⟩
  show (threshold < (fun n (i : Fin b) => (y n q 0 i : ℝ)) (j * m + m / 2 + D) i ↔ _)
  have hu' : (fun n (i : Fin b) => (y n q 0 i : ℝ)) (j * m + m / 2 + D) i = u := hu.symm
  rw [hu']
  have key : |u - R * if bits.getD j (fun _ => false) i = true then z.transmission else 0| ≤
    ε * (|R| * z.transmission) := by rw [hu]; exact key
  rw [abs_of_pos hR0, hε1, abs_le] at key
  have m1 := min_le_left ((R * z.transmission - threshold) / 2) threshold
  have m2 := min_le_right ((R * z.transmission - threshold) / 2) threshold
  by_cases hbit : bits.getD j (fun _ => false) i = true
  · rw [if_pos hbit] at key
    exact ⟨fun _ => hbit, fun _ => by linarith [key.1]⟩
  · rw [if_neg hbit, mul_zero, sub_zero] at key
    exact ⟨fun h => absurd h (by linarith [key.2]), fun h => absurd h hbit⟩

theorem unfiltered (butter : ℚ → List ℝ × List ℝ) (s : List ℕ) (T : ℕ) (hT : T ≠ 2) (x : ℕ → Ten s) (S : ℚ) (hS : S ≠ 0) (R : ℝ) :
    lowpassDetect butter ⟨s, samples T x⟩ S (S / 2) R = .ok ⟨s, samples T fun n => R • x n⟩ := by
  unfold lowpassDetect
  rw [toPower_of_ne _ _ (by rw [samples_length]; exact hT)]
  simp only
  unfold Sig.lowpass Sig.scale
  simp only
  rw [if_neg hS, if_pos (by field_simp), samples_map]

/-- … Without filter (a cutoff at the Nyquist frequency) the threshold decides: there are no errors exactly if it is at least the current
of a zero and less than the current of a one. -/
theorem C127_threshold (z : Wg) (R threshold : ℝ) (butter' : ℚ → List ℝ × List ℝ) :
    ∃ d, LinkedNet (lineModules z) lineLinks d ∧ ∀ (nw b m B : ℕ), 0 < b → 0 < m → 0 < B → ∀ (v : ℝ) (wl : Fin nw → ℝ)
      (env : SimEnv) (bits : List (Fin b → Bool)), env.freqdomain = false → env.dt = some (1 / (m * B : ℝ)) → env.t.length = bits.length * m →
      bits.length * m ≠ 2 → m / 2 + z.steps v (1 / (m * B : ℝ)) < bits.length * m → (∀ i, ∃ r ∈ bits, r i = false) →
      (∃ j < bitsReceived (bits.length * m) m (z.steps v (1 / (m * B : ℝ))), ∃ i, bits.getD j (fun _ => false) i = false) →
      (∃ j < bitsReceived (bits.length * m) m (z.steps v (1 / (m * B : ℝ))), ∃ i, bits.getD j (fun _ => false) i = true) →
      ∀ (rng : ℕ → List (Fin b → ℝ)) (butter : ℚ → List ℝ × List ℝ), ∃ r stream, initNet (d.plant v wl) env = .ok (some r) ∧
        bitStream rng butter (.array (bitRows bits)) B (m * B : ℕ) none = .ok stream ∧
        ∀ cs : List (Actor (Fin nw) (Fin b)), ∃ out cur, forwardPower r env cs (fun n _ _ i => (stream.getD n 0 i, 0)) = .ok out ∧
          lowpassDetect butter' ⟨[nw, 1, b], out.map (powers 1)⟩ (m * B : ℕ) ((m * B : ℕ) / 2) R = .ok ⟨[nw, 1, b], cur⟩ ∧
          ∀ q : Fin nw, berLoss (channel cur q 0) stream threshold (z.steps v (1 / (m * B : ℝ)) * B / (m * B : ℕ)) (0 : ℕ) B (m * B : ℕ) =
            .ok (some 0) ↔ 0 ≤ threshold ∧ threshold < R * z.transmission := by
  obtain ⟨d, hd, H⟩ := line_bits z
  refine ⟨d, hd, fun nw b m B hb hm0 hB v wl env bits hf hdt hT hT2 hD hz h0 h1 rng butter => ?_⟩
  obtain ⟨r, stream, hr, hs, H⟩ := H nw b m B hm0 hB v wl env bits hf hdt hT rng butter
  refine ⟨r, stream, hr, hs, fun cs => ?_⟩
  obtain ⟨out, ho, hp⟩ := H cs
  set D := z.steps v (1 / (m * B : ℝ))
  have hS : ((m * B : ℕ) : ℚ) ≠ 0 := by exact_mod_cast (Nat.mul_pos hm0 hB).ne'
  let p : ℕ → Fin b → ℝ := fun n i => R * if D ≤ n ∧ bits.getD ((n - D) / m) (fun _ => false) i = true then z.transmission else 0
  refine ⟨out, samples (bits.length * m) fun n => (fun _ _ i => p n i : Ten [nw, 1, b]), ho, ?_, fun q => ?_⟩
  · rw [hp]
    exact unfiltered butter' [nw, 1, b] _ hT2 _ _ hS R
  haveI : Nonempty (Fin b) := ⟨⟨0, hb⟩⟩
  have hch : channel (samples (bits.length * m) fun n => (fun _ _ i => p n i : Ten [nw, 1, b])) q 0 = samples (bits.length * m) p :=
    samples_map _ _ _
  rw [hch]
  obtain ⟨target, ht, hber⟩ := C127_rate bits m B hm0 hB hz rng butter
  rw [hs] at ht
  obtain rfl := Except.ok.inj ht
  rw [hber D hD p threshold]
  have hpj : ∀ j i, p (j * m + m / 2 + D) i = R * if bits.getD j (fun _ => false) i = true then z.transmission else 0 := by
    intro j i
    dsimp only [p]
    have e1 : D ≤ j * m + m / 2 + D := by omega
    have e2 : (j * m + m / 2 + D - D) / m = j := by
      have : j * m + m / 2 + D - D = m / 2 + j * m := by omega
      rw [this, Nat.add_mul_div_right _ _ hm0, Nat.div_eq_of_lt (Nat.div_lt_self hm0 (by omega)), Nat.zero_add]
    rw [e2]
    simp only [e1, true_and]
  simp only [hpj]
  have hn : 0 < bitsReceived (bits.length * m) m D := Nat.div_pos (by omega) hm0
  have hden : ((bitsReceived (bits.length * m) m D : ℕ) : ℝ) * Fintype.card (Fin b) ≠ 0 := by
    have : (Fintype.card (Fin b) : ℝ) ≠ 0 := by exact_mod_cast Fintype.card_pos.ne'
    exact mul_ne_zero (by exact_mod_cast hn.ne') this
  constructor
  · intro h
    have h' := Option.some.inj (Except.ok.inj h)
    rw [div_eq_zero_iff, or_iff_left hden] at h'
    have hall : ∀ j ∈ range (bitsReceived (bits.length * m) m D), ∀ i,
        (threshold < R * (if bits.getD j (fun _ => false) i = true then z.transmission else 0) ↔ bits.getD j (fun _ => false) i = true) := by
      intro j hj i
      have n0 : ∀ (P : Prop) [Decidable P], (0 : ℝ) ≤ if P then (0 : ℝ) else 1 := by
        intro P _
        split <;> norm_num
      have a := (sum_eq_zero_iff_of_nonneg fun j _ => sum_nonneg fun i _ => n0 _).1 h' j hj
      have b := (sum_eq_zero_iff_of_nonneg fun i _ => n0 _).1 a i (mem_univ _)
      by_contra hc
      rw [if_neg hc] at b
      norm_num at b
    obtain ⟨j0, hj0, i0, hi0⟩ := h0
    obtain ⟨j1, hj1, i1, hi1⟩ := h1
    have a0 := hall j0 (mem_range.2 hj0) i0
    have a1 := hall j1 (mem_range.2 hj1) i1
    rw [hi0] at a0
    rw [hi1] at a1
    norm_num at a0 a1
    exact ⟨a0, a1⟩
  · rintro ⟨h0, h1⟩
    refine congrArg (fun x => Except.ok (some x)) ?_
    rw [div_eq_zero_iff]
    left
    refine sum_eq_zero fun j _ => sum_eq_zero fun i _ => if_pos ?_
    by_cases hbit : bits.getD j (fun _ => false) i = true
    · rw [if_pos hbit]
      exact ⟨fun _ => hbit, fun _ => h1⟩
    · rw [if_neg hbit, mul_zero]
      exact ⟨fun h => absurd h (by linarith), fun h => absurd h hbit⟩

/-! ### Concrete instances -/

/-- A waveguide of 1 m with a loss of 3 dB transmits about half of the power. -/
example : (⟨1, 3, 3, 1.55e-6, 3, 0⟩ : Wg).transmission = 10 ^ (-(3 : ℝ) / 10) := by
  unfold Wg.transmission
  norm_num

/-- A loss of 20 dB leaves a hundredth. -/
theorem line_twenty : (⟨2, 10, 3, 1.55e-6, 3, 0⟩ : Wg).transmission = 1 / 100 := by
  unfold Wg.transmission
  norm_num

/-- With the default detector (order four, cutoff 20 GHz at 160 GS/s) and a responsivity of 1 A/W, the threshold 0.005 is good for a link
that loses 20 dB. -/
example : ∃ d, LinkedNet (lineModules ⟨2, 10, 3, 1.55e-6, 3, 0⟩) lineLinks d ∧ ∃ m₀ : ℕ, ∀ m ≥ m₀, ∀ (nw b B : ℕ), 0 < b → 0 < B →
    ∀ (v : ℝ) (wl : Fin nw → ℝ) (env : SimEnv) (bits : List (Fin b → Bool)), env.freqdomain = false → env.dt = some (1 / (m * B : ℝ)) →
      env.t.length = bits.length * m → m / 2 + (⟨2, 10, 3, 1.55e-6, 3, 0⟩ : Wg).steps v (1 / (m * B : ℝ)) < bits.length * m →
      (∀ i, ∃ r ∈ bits, r i = false) →
      ∀ (rng : ℕ → List (Fin b → ℝ)) (butter : ℚ → List ℝ × List ℝ), ∃ r stream, initNet (d.plant v wl) env = .ok (some r) ∧
        bitStream rng butter (.array (bitRows bits)) B (m * B : ℕ) none = .ok stream ∧
        ∀ cs : List (Actor (Fin nw) (Fin b)), ∃ out cur, forwardPower r env cs (fun n _ _ i => (stream.getD n 0 i, 0)) = .ok out ∧
          lowpassDetect (fun w => butterworth 4 (w : ℝ)) ⟨[nw, 1, b], out.map (powers 1)⟩ (m * B : ℕ) (1 / 4 * (m * B : ℕ) / 2) 1 =
            .ok ⟨[nw, 1, b], cur⟩ ∧
          ∀ q : Fin nw, berLoss (channel cur q 0) stream 0.005
            ((⟨2, 10, 3, 1.55e-6, 3, 0⟩ : Wg).steps v (1 / (m * B : ℝ)) * B / (m * B : ℕ)) (0 : ℕ) B (m * B : ℕ) = .ok (some 0) :=
  C127_open 4 (by norm_num) (1 / 4) (by norm_num) (by norm_num) _ 1 0.005 (by norm_num) (by rw [line_twenty]; norm_num)

/-- Three bits in two channels, without delay (a waveguide of length 0): all conditions of `C127_threshold` hold. -/
example : let bits : List (Fin 2 → Bool) := [![true, false], ![false, true], ![true, false]]
    (∀ i, ∃ r ∈ bits, r i = false) ∧ 4 / 2 + (⟨0, 0, 3, 1.55e-6, 3, 0⟩ : Wg).steps 3e8 (1 / ((4 : ℕ) * (40 : ℕ) : ℝ)) < bits.length * 4 ∧
      bitsReceived (bits.length * 4) 4 ((⟨0, 0, 3, 1.55e-6, 3, 0⟩ : Wg).steps 3e8 (1 / ((4 : ℕ) * (40 : ℕ) : ℝ))) = 3 := by
  have h : (⟨0, 0, 3, 1.55e-6, 3, 0⟩ : Wg).steps 3e8 (1 / ((4 : ℕ) * (40 : ℕ) : ℝ)) = 0 := by
    unfold Wg.steps
    norm_num
  intro bits
  rw [h]
  exact ⟨by decide, by decide, by decide⟩

end PT
