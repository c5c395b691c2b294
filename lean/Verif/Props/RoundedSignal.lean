import Verif.Proof.RoundedSignal
import Verif.Props.Rounded
import Verif.Spec.Rounded

/-! # C133: rates, latencies and bits in floating-point arithmetic -/

namespace PT
open Spec

namespace Spec

/-- A rate is what it should be, up to the last digits of a floating-point number. -/
def RateNear (r R : ℚ) : Prop := |r - R| ≤ R / 2 ^ 50

/-- A duration in samples is not, up to rounding errors, half a sample off a whole number of samples. -/
def Clear (x : ℚ) : Prop := ∀ n : ℤ, n ≠ 0 → (|x| + 1) / 2 ^ 46 < |x + 1 / 2 - n|

end Spec

/-- Without rounding, the rounded functions are the exact ones. -/
theorem C133_exact {V : Type} [AddCommGroup V] [Module ℝ V] {ι : Type} [Fintype ι] (rng : ℕ → List V)
    (butter : ℚ → List ℝ × List ℝ) (bits : BitsArg V) (b s : ℚ) (f : Option ℚ) (p t : List (ι → ℝ)) (θ : ℝ) (l w : ℚ) :
    bitStreamR id rng butter bits b s f = bitStream rng butter bits b s f ∧ mseLossR id p t l w b s = mseLoss p t l w b s ∧
      berLossR id p t θ l w b s = berLoss p t θ l w b s := by
  refine ⟨?_, rfl, rfl⟩
  cases f <;> rfl

/-- The rates of an environment made with a whole sample rate (or the corresponding time step) and a number of time steps. -/
theorem C133_env (a : Args) (e : Env) (n S : ℕ) (d : ℚ) (h : Env.initR fl a = .ok e) (hn : a.num_t = .given (n : ℤ))
    (hd : FloatStep a d) (hdS : d = fl (1 / S)) (hx : HasValue a.t0 0) (hfd : a.freqdomain = false) (hn1 : 2 ≤ n) (hn2 : n ≤ 2 ^ 50)
    (hS : 1 ≤ S) (hS2 : S ≤ 2 ^ 50) : ∃ s, e.samplerate = some s ∧ RateNear s S := by
  have hSq : (1 : ℚ) ≤ S := by exact_mod_cast hS
  have hSq2 : (S : ℚ) ≤ 2 ^ 50 := by exact_mod_cast hS2
  have hS0 : (0 : ℚ) < S := by linarith
  have hI : (1 : ℚ) / 2 ^ 50 ≤ 1 / S := one_div_le_one_div_of_le hS0 hSq2
  have hI0 : (0 : ℚ) < 1 / S := by positivity
  have big : (2 : ℚ) ^ (-900 : ℤ) ≤ 1 / 2 ^ 51 := by
    rw [show (1 : ℚ) / 2 ^ 51 = 2 ^ (-51 : ℤ) from by norm_num]
    exact two_le (by norm_num)
  have small : (2 : ℚ) ^ (-900 : ℤ) / 2 ^ 60 ≤ 2 ^ (-900 : ℤ) := div_le_self (two_pos _).le (by norm_num)
  have e51 : (1 : ℚ) / 2 ^ 51 = 1 / 2 ^ 50 / 2 := by norm_num
  have h1 := fl_rel (x := 1 / (S : ℚ)) (normal_of (by rw [abs_of_pos hI0]; linarith))
  rw [abs_of_pos hI0, ← hdS] at h1
  obtain ⟨a1, a2⟩ := abs_le.mp h1
  have hle : 1 / (S : ℚ) / 2 ^ 53 ≤ 1 / S / 2 := by
    gcongr
    norm_num
  obtain ⟨x, hx1, hx2, -⟩ := C107_zero_partial a e n d h hn hd hx hfd hn1 hn2 (by linarith)
  obtain ⟨c, br0, t0l, t, wl, f, sr, bl, hc, hchk, hbr, ht, htt, htne, hwl, -, hsr, hbl, -, he⟩ := initR_ok h
  have hdt : e.dt = firstStepR fl t := by rw [he]
  rw [← hdt, hx1] at hsr
  simp only [recipOptR, bind_eq_ok, pyDivR_ok, pure_eq_ok, Except.ok.injEq] at hsr
  obtain ⟨z, ⟨-, rfl⟩, rfl⟩ := hsr
  refine ⟨fl (1 / x), by rw [he], ?_⟩
  have hd3 : d ≤ 1 / S + 1 / S / 2 ^ 53 := by linarith
  have hd4 : d / 2 ^ 51 ≤ (1 / S + 1 / S / 2 ^ 53) / 2 ^ 51 := by gcongr
  have hxS : |x - 1 / S| ≤ 1 / S * (41 / 64 / 2 ^ 50) := by
    have := abs_tri x d (1 / S)
    have e : (1 : ℚ) / S / 2 ^ 53 + (1 / S + 1 / S / 2 ^ 53) / 2 ^ 51 ≤ 1 / S * (41 / 64 / 2 ^ 50) := by
      generalize 1 / (S : ℚ) = I at hI0
      norm_num
      linarith
    linarith
  have hr := recip_close (F := 1) (d := x) (D := 1 / S) (ε := 41 / 64 / 2 ^ 50) (by norm_num) hI0 (by norm_num) hxS
  rw [one_div_one_div] at hr
  have hf := fl_close_pos (X := (S : ℚ)) (ε := 41 / 64 / 2 ^ 50 + 2 * (41 / 64 / 2 ^ 50) ^ 2) (by linarith [show (1 : ℚ) / 2 ^ 200 ≤ 1 from by norm_num])
    (by norm_num) hr
  refine hf.trans ?_
  rw [show (S : ℚ) / 2 ^ 50 = S * (1 / 2 ^ 50) from by ring]
  exact mul_le_mul_of_nonneg_left (by norm_num) hS0.le

/-- The rates of an environment made with a whole sample rate (or the corresponding time step) and an end time. -/
theorem C133_interval (a : Args) (e : Env) (S : ℕ) (d y : ℚ) (h : Env.initR fl a = .ok e) (hn : ¬ Supplied a .num_t)
    (ht : ¬ Supplied a .t) (hs : Supplied a .dt ∨ Supplied a .samplerate ∨ Supplied a .t0 ∨ Supplied a .t1)
    (hd : FloatStep a d) (hdS : d = fl (1 / S)) (hx : HasValue a.t0 0) (hy : HasValue a.t1 y) (hfd : a.freqdomain = false)
    (h2 : 2 ≤ e.num_t) (hS : 1 ≤ S) (hS2 : S ≤ 2 ^ 50) : e.dt = some d ∧ ∃ s, e.samplerate = some s ∧ RateNear s S := by
  have hSq : (1 : ℚ) ≤ S := by exact_mod_cast hS
  have hSq2 : (S : ℚ) ≤ 2 ^ 50 := by exact_mod_cast hS2
  have hS0 : (0 : ℚ) < S := by linarith
  have hI : (1 : ℚ) / 2 ^ 50 ≤ 1 / S := one_div_le_one_div_of_le hS0 hSq2
  have hI0 : (0 : ℚ) < 1 / S := by positivity
  have hb : Binary64 d := hdS ▸ fl_binary _
  have h1 := fl_close_pos (x := 1 / (S : ℚ)) (X := 1 / S) (ε := 0) (by linarith [show (1 : ℚ) / 2 ^ 200 ≤ 1 / 2 ^ 50 from by norm_num])
    (by norm_num) (by simp)
  rw [← hdS, zero_add] at h1
  obtain ⟨a1, a2⟩ := abs_le.mp h1
  have hd0 : 0 < d := by
    have : 1 / (S : ℚ) * (1 / 2 ^ 52) < 1 / S := by
      generalize 1 / (S : ℚ) = I at hI0
      norm_num
      linarith
    linarith
  obtain ⟨hxy, hnum, hgrid⟩ := interval_grid h hn ht hs hd hx hy hfd
  have hdt : e.dt = some d := by
    obtain ⟨c, br0, t0l, t, wl, f, sr, bl, hc, hchk, hbr, ht, htt, htne, hwl, -, hsr, hbl, -, he⟩ := initR_ok h
    have hdt : e.dt = firstStepR fl e.t := by rw [he]
    rw [hdt]
    have hlen : 2 ≤ e.t.length := by rw [← hnum]; exact h2
    obtain ⟨-, -, hv⟩ := arangeR_ok hgrid
    rcases hv with hv | hv
    · rw [hv] at hlen
      simp at hlen
    · have hq : 0 ≤ fl (fl (y - 0) / d) := fl_nonneg (div_nonneg (fl_nonneg (by linarith)) hd0.le)
      simp only [if_pos hq] at hv
      match hm : e.t, hlen with
      | u :: v :: r, _ =>
        have hu := hv 0 u (by rw [hm]; rfl)
        have hw := hv 1 v (by rw [hm]; rfl)
        rw [Nat.cast_zero, fl_zero, mul_zero, fl_zero, zero_add, fl_zero] at hu
        rw [fl_nat (by norm_num), Nat.cast_one, mul_one, fl_of hb, zero_add, fl_of hb] at hw
        rw [hu, hw]
        show some (fl (d - 0)) = some d
        rw [sub_zero, fl_of hb]
  refine ⟨hdt, ?_⟩
  obtain ⟨c, br0, t0l, t, wl, f, sr, bl, hc, hchk, hbr, ht, htt, htne, hwl, -, hsr, hbl, -, he⟩ := initR_ok h
  have hdt' : e.dt = firstStepR fl t := by rw [he]
  rw [← hdt', hdt] at hsr
  simp only [recipOptR, bind_eq_ok, pyDivR_ok, pure_eq_ok, Except.ok.injEq] at hsr
  obtain ⟨z, ⟨-, rfl⟩, rfl⟩ := hsr
  refine ⟨fl (1 / d), by rw [he], ?_⟩
  have hr := recip_close (F := 1) (d := d) (D := 1 / S) (ε := 1 / 2 ^ 52) (by norm_num) hI0 (by norm_num) h1
  rw [one_div_one_div] at hr
  have hf := fl_close_pos (X := (S : ℚ)) (ε := 1 / 2 ^ 52 + 2 * (1 / 2 ^ 52) ^ 2) (by linarith [show (1 : ℚ) / 2 ^ 200 ≤ 1 from by norm_num])
    (by norm_num) hr
  refine hf.trans ?_
  rw [show (S : ℚ) / 2 ^ 50 = S * (1 / 2 ^ 50) from by ring]
  exact mul_le_mul_of_nonneg_left (by norm_num) hS0.le

variable {V : Type} [AddCommGroup V] [Module ℝ V] {ι : Type} [Fintype ι]

theorem near_quarter {r : ℚ} {n : ℕ} (h : RateNear r n) (hn : n ≤ 2 ^ 47) : |r - n| ≤ 1 / 4 := by
  have hnq : (n : ℚ) ≤ 2 ^ 47 := by exact_mod_cast hn
  refine h.trans ?_
  rw [div_le_iff₀ (by norm_num)]
  norm_num at hnq ⊢
  linarith

/-- C133 (what holds), bit streams: with rates that are whole numbers up to rounding errors, the bits are resampled exactly as in
exact arithmetic. -/
theorem C133_stream_partial (rng : ℕ → List V) (butter : ℚ → List ℝ × List ℝ) (bits : BitsArg V) (B S : ℕ) (b s : ℚ)
    (hB2 : B ≤ 2 ^ 47) (hS2 : S ≤ 2 ^ 47) (hb : RateNear b B) (hs : RateNear s S) :
    bitStreamR fl rng butter bits b s none = bitStream rng butter bits B S none := by
  have h1 := rate_whole (near_quarter hb hB2) (hB2.trans (by norm_num))
  have h2 := rate_whole (near_quarter hs hS2) (hS2.trans (by norm_num))
  unfold bitStreamR bitStream
  simp only [refinedR, refined, h1, h2, toRate_nat]
  cases bits <;> rfl

theorem warmup_same {W : ℕ} {b s : ℚ} (hW : W ≤ 2 ^ 50) : warmupPointsR fl W b s = latencyPointsR fl W b s := by
  unfold warmupPointsR latencyPointsR
  rw [toRateR_nat hW, show ((W : ℤ) : ℚ) = (W : ℚ) from by norm_cast, toRateR_nat hW, show ((W : ℤ) : ℚ) = (W : ℚ) from by norm_cast,
    fl_nat (hW.trans (by norm_num))]

theorem warmup_exact {W : ℕ} {b s : ℚ} : warmupPoints W b s = latencyPoints W b s := by
  unfold warmupPoints latencyPoints
  rw [toRate_nat, show ((W : ℤ) : ℚ) = (W : ℚ) from by norm_cast, toRate_nat, show ((W : ℤ) : ℚ) = (W : ℚ) from by norm_cast]

theorem near_loose {r R : ℚ} (hR : 0 ≤ R) (h : RateNear r R) : |r - R| ≤ R * (1 / 2 ^ 50 + 1 / 2 ^ 52) := by
  refine h.trans ?_
  rw [show R / 2 ^ 50 = R * (1 / 2 ^ 50) from by ring]
  exact mul_le_mul_of_nonneg_left (by norm_num) hR

/-- C133 (what holds), mean squared error: the loss is that of exact arithmetic, unless the latency or the warmup is half a sample off
a whole number of samples. -/
theorem C133_mse_partial (p t : List (ι → ℝ)) (l b s : ℚ) (W B S : ℕ) (hW : W ≤ 2 ^ 50) (hB : 1 ≤ B) (hS : 1 ≤ S)
    (hb : RateNear b B) (hs : RateNear s S) (hl : Clear (l * S / B)) (hw : Clear (W * S / B)) :
    mseLossR fl p t l W b s = mseLoss p t l W B S := by
  have hBq : (1 : ℚ) ≤ B := by exact_mod_cast hB
  have hSq : (1 : ℚ) ≤ S := by exact_mod_cast hS
  have h1 := latency_same hBq hSq hb (near_loose (by linarith) hs) hl
  have h2 := latency_same hBq hSq hb (near_loose (by linarith) hs) hw
  rw [← warmup_same hW, ← warmup_exact] at h2
  have hb0 : b ≠ 0 := by
    rintro rfl
    have h : |(0 : ℚ) - B| ≤ B / 2 ^ 50 := hb
    rw [zero_sub, abs_neg, abs_of_nonneg (by linarith)] at h
    have : (B : ℚ) / 2 ^ 50 ≤ B / 2 := by gcongr; norm_num
    linarith
  have hB0 : (B : ℚ) ≠ 0 := by linarith
  unfold mseLossR mseLoss
  cases broadcastTime p t with
  | error e => rfl
  | ok x => simp only [h1, h2, hb0, hB0, if_false]

/-- C133 (what holds), bit error rate: the loss is that of exact arithmetic, unless the latency is half a (refined) sample off a whole
number of samples. -/
theorem C133_ber_partial (p t : List (ι → ℝ)) (θ : ℝ) (l b s : ℚ) (W B S m : ℕ) (hW : W ≤ 2 ^ 50) (hB : 1 ≤ B) (hB2 : B ≤ 2 ^ 47)
    (hS : 1 ≤ S) (hS2 : S ≤ 2 ^ 47) (hb : RateNear b B) (hs : RateNear s S) (hm : S = m * Nat.gcd S B) (hm2 : m ≤ 2 ^ 44)
    (hl : Clear (l * m)) (hw : W * m ≤ 2 ^ 44) :
    berLossR fl p t θ l W b s = berLoss p t θ l W B S := by
  have hBq : (1 : ℚ) ≤ B := by exact_mod_cast hB
  have hSq : (1 : ℚ) ≤ S := by exact_mod_cast hS
  have h1 := rate_whole (near_quarter hb hB2) (hB2.trans (by norm_num))
  have h2 := rate_whole (near_quarter hs hS2) (hS2.trans (by norm_num))
  set g := Nat.gcd S B with hg
  have hg0 : 0 < g := Nat.gcd_pos_of_pos_left _ hS
  obtain ⟨k, hk⟩ : g ∣ B := Nat.gcd_dvd_right S B
  have hk0 : 1 ≤ k := by
    rcases Nat.eq_zero_or_pos k with h | h
    · subst h; omega
    · exact h
  have hkB : k ≤ B := by rw [hk]; exact Nat.le_mul_of_pos_left k hg0
  have hrb : (B : ℤ) / ((Int.gcd (S : ℤ) (B : ℤ) : ℕ) : ℤ) = (k : ℤ) := by
    rw [show Int.gcd (S : ℤ) (B : ℤ) = g from by rw [hg]; rfl, hk]
    push_cast
    exact Int.mul_ediv_cancel_left _ (by omega)
  have hgq : (0 : ℚ) < g := by exact_mod_cast hg0
  have hkq : (1 : ℚ) ≤ k := by exact_mod_cast hk0
  have hSm : (S : ℚ) = m * g := by exact_mod_cast hm
  have hBk : (B : ℚ) = g * k := by exact_mod_cast hk
  have hkS : (1 : ℚ) ≤ k * S := by nlinarith
  have q : ∀ x : ℚ, x * (k * S) / B = x * m := by
    intro x
    rw [hSm, hBk]
    field_simp
  have n1 : |fl (fl (k : ℚ) * s) - k * S| ≤ k * S * (1 / 2 ^ 50 + 1 / 2 ^ 52) := by
    rw [fl_nat (hkB.trans (hB2.trans (by norm_num)))]
    refine fl_close_pos (by linarith [show (1 : ℚ) / 2 ^ 200 ≤ 1 from by norm_num]) (by norm_num) ?_
    have := mul_close (l := (k : ℚ)) (s := s) (S := S) (ε := 1 / 2 ^ 50) (by linarith) (by
      have : |s - S| ≤ S / 2 ^ 50 := hs
      linarith)
    rwa [abs_of_nonneg (by linarith : 0 ≤ (k : ℚ) * S)] at this
  have c1 := latency_same (l := l) hBq hkS hb n1 (by rw [q]; exact hl)
  have c2 := latency_whole (l := 1) (m := m) hBq hkS hb n1 (by rw [q, one_mul]) hm2
  have c3 := latency_whole (l := W) (m := W * m) hBq hkS hb n1 (by rw [q]; push_cast; ring) hw
  have c4 : toRateR fl (fl (fl (fl (k : ℚ) * s) / b)) = m := by
    rw [← c2.1]
    unfold latencyPointsR
    rw [one_mul, fl_of (fl_binary _)]
  have c5 : toRate ((k : ℚ) * S / B) = m := by
    rw [← c2.2]
    unfold latencyPoints
    rw [one_mul]
  have c6 : warmupPointsR fl W b (fl (fl (k : ℚ) * s)) = warmupPoints W B (k * S) := by
    rw [warmup_same hW, warmup_exact, c3.1, c3.2]
  unfold berLossR berLoss
  cases broadcastTime p t with
  | error e => rfl
  | ok x => simp only [h1, h2, toRate_nat, hrb, Int.cast_natCast, c1, c4, c5, c6]

theorem refined_whole (S F : ℕ) : refined (S : ℚ) (some (F : ℚ)) = (((max (8 * F / S * S) S : ℕ) : ℚ), ((max (8 * F / S * S) S / S : ℕ) : ℤ)) := by
  unfold refined
  have h8 : toRate (8 * (F : ℚ)) = ((8 * F : ℕ) : ℤ) := by
    rw [← toRate_nat]
    push_cast
    rfl
  have ht : max (((toRate (8 * (F : ℚ))).fdiv (toRate S) : ℤ) * (S : ℚ)) S = ((max (8 * F / S * S) S : ℕ) : ℚ) := by
    rw [h8, toRate_nat, Int.fdiv_eq_ediv_of_nonneg _ (by positivity), ← Int.natCast_ediv]
    push_cast
    rfl
  simp only [ht]
  rw [toRate_nat, toRate_nat, Int.fdiv_eq_ediv_of_nonneg _ (by positivity), ← Int.natCast_ediv]

/-- C133 (what holds), filtered bit streams: apart from the last digits of the normalized cutoff frequency, from which the filter
coefficients are computed, the stream is that of exact arithmetic. -/
theorem C133_filtered_partial (rng : ℕ → List V) (butter : ℚ → List ℝ × List ℝ) (bits : BitsArg V) (B S F T : ℕ) (b s : ℚ)
    (hB : 1 ≤ B) (hB2 : B ≤ 2 ^ 47) (hS : 1 ≤ S) (hS2 : S ≤ 2 ^ 47) (hF : 1 ≤ F) (hF2 : F ≤ 2 ^ 44) (hb : RateNear b B) (hs : RateNear s S)
    (hT : T = max (8 * F / S * S) S) (w : ℚ) (hw : w = F / (1 / 2 * T * (B / Nat.gcd T B : ℕ))) :
    bitStream rng butter bits B S (some F) = bitStream rng (fun _ => butter w) bits B S (some F) ∧
      ∃ w' : ℚ, |w' - w| ≤ w / 2 ^ 48 ∧
        bitStreamR fl rng butter bits b s (some F) = bitStream rng (fun _ => butter w') bits B S (some F) := by
  have hSq : (1 : ℚ) ≤ S := by exact_mod_cast hS
  have hFq : (1 : ℚ) ≤ F := by exact_mod_cast hF
  have h1 := rate_whole (near_quarter hb hB2) (hB2.trans (by norm_num))
  have h2 := rate_whole (near_quarter hs hS2) (hS2.trans (by norm_num))
  set K := 8 * F / S with hK
  have hK1 : K * S ≤ 8 * F := Nat.div_mul_le_self _ _
  have hK2 : 8 * F < K * S + S := by
    have := Nat.lt_div_mul_add (a := 8 * F) (b := S) hS
    rwa [← hK] at this
  have hT4 : 4 * F ≤ T := by rw [hT]; omega
  have hT1 : S ≤ T := by rw [hT]; exact le_max_right _ _
  have hT2 : T ≤ 2 ^ 47 := by
    rw [hT]
    refine max_le ?_ hS2
    norm_num at hF2 ⊢
    omega
  have hKb : K ≤ 2 ^ 47 := by
    have : K ≤ K * S := Nat.le_mul_of_pos_right _ hS
    norm_num at hF2 ⊢
    omega
  have hTq : (T : ℚ) = max ((K : ℚ) * S) S := by rw [hT]; push_cast; rfl
  have hTq1 : (1 : ℚ) ≤ T := by exact_mod_cast hS.trans hT1
  -- the refined sample rate
  set t := max (fl (fl (K : ℚ) * s)) s with ht
  have near_t : |t - T| ≤ T * (1 / 2 ^ 50 + 1 / 2 ^ 52) := by
    rw [ht, hTq]
    refine max_close (by norm_num) ?_ (near_loose (by linarith) hs)
    rw [fl_nat (hKb.trans (by norm_num))]
    rcases Nat.eq_zero_or_pos K with h0 | h0
    · rw [h0, Nat.cast_zero, zero_mul, zero_mul, fl_zero]
      norm_num
    · have hKq : (1 : ℚ) ≤ K := by exact_mod_cast h0
      have hKS : (1 : ℚ) ≤ K * S := by nlinarith
      refine fl_close_pos (by linarith [show (1 : ℚ) / 2 ^ 200 ≤ 1 from by norm_num]) (by norm_num) ?_
      have := mul_close (l := (K : ℚ)) (s := s) (S := S) (ε := 1 / 2 ^ 50) (by linarith) (by
        have : |s - S| ≤ S / 2 ^ 50 := hs
        linarith)
      rwa [abs_of_nonneg (by linarith : 0 ≤ (K : ℚ) * S)] at this
  have h3 : toRateR fl t = T := by
    refine rate_whole (near_t.trans ?_) (hT2.trans (by norm_num))
    have : (T : ℚ) ≤ 2 ^ 47 := by exact_mod_cast hT2
    calc (T : ℚ) * (1 / 2 ^ 50 + 1 / 2 ^ 52) ≤ 2 ^ 47 * (1 / 2 ^ 50 + 1 / 2 ^ 52) := by gcongr
      _ ≤ 1 / 4 := by norm_num
  have h4 : toRateR fl (fl (8 * (F : ℚ))) = ((8 * F : ℕ) : ℤ) := by
    have e : (8 : ℚ) * F = ((8 * F : ℕ) : ℚ) := by push_cast; rfl
    rw [e, fl_nat (by norm_num at hF2 ⊢; omega)]
    exact toRateR_nat (by norm_num at hF2 ⊢; omega)
  have h5 : ((8 * F : ℕ) : ℤ).fdiv (S : ℤ) = (K : ℤ) := by
    rw [Int.fdiv_eq_ediv_of_nonneg _ (by positivity), ← Int.natCast_ediv]
  have h6 : (T : ℤ).fdiv (S : ℤ) = ((T / S : ℕ) : ℤ) := by
    rw [Int.fdiv_eq_ediv_of_nonneg _ (by positivity), ← Int.natCast_ediv]
  have hrefR : refinedR fl s (some (F : ℚ)) = (t, ((T / S : ℕ) : ℤ)) := by
    unfold refinedR
    simp only [h2, h4, h5, Int.cast_natCast, ← ht, h3, h6]
  have href : refined (S : ℚ) (some (F : ℚ)) = ((T : ℚ), ((T / S : ℕ) : ℤ)) := by
    rw [refined_whole, ← hK, ← hT]
  -- the fractional bit rate
  set g := Nat.gcd T B with hg
  have hg0 : 0 < g := Nat.gcd_pos_of_pos_right _ hB
  set k := B / g with hk
  have hk0 : 1 ≤ k := Nat.div_pos (Nat.le_of_dvd hB (Nat.gcd_dvd_right T B)) hg0
  have hkB : k ≤ B := Nat.div_le_self _ _
  have hkq : (1 : ℚ) ≤ k := by exact_mod_cast hk0
  have hrb : (B : ℤ) / ((Int.gcd (T : ℤ) (B : ℤ) : ℕ) : ℤ) = (k : ℤ) := by
    rw [show Int.gcd (T : ℤ) (B : ℤ) = g from rfl, ← Int.natCast_ediv]
  -- the normalized cutoff frequency
  have hT4q : (4 : ℚ) * F ≤ T := by exact_mod_cast hT4
  have hD : (2 : ℚ) * F ≤ 1 / 2 * T * k := by nlinarith
  have hD0 : (0 : ℚ) < 1 / 2 * T * k := by linarith
  have hw0 : 0 < w := by rw [hw]; positivity
  have hw1 : w ≤ 1 / 2 := by rw [hw, div_le_iff₀ hD0]; linarith
  have hwlow : 1 / 2 ^ 200 ≤ w := by
    rw [hw, le_div_iff₀ hD0]
    have e1 : (T : ℚ) ≤ 2 ^ 47 := by exact_mod_cast hT2
    have e2 : (k : ℚ) ≤ 2 ^ 47 := by exact_mod_cast hkB.trans hB2
    have e3 : (1 : ℚ) / 2 * T * k ≤ 2 ^ 47 * 2 ^ 47 := by
      refine mul_le_mul (by linarith) e2 (by linarith) (by norm_num)
    norm_num at e3 ⊢
    linarith
  have n1 : |1 / 2 * t - 1 / 2 * T| ≤ 1 / 2 * T * (1 / 2 ^ 50 + 1 / 2 ^ 52) := by
    have := mul_close (l := (1 / 2 : ℚ)) (by linarith) near_t
    rwa [abs_of_nonneg (by linarith : (0 : ℚ) ≤ 1 / 2 * T)] at this
  have n2 := fl_close_pos (by linarith [show (1 : ℚ) / 2 ^ 200 ≤ 1 / 2 from by norm_num]) (by norm_num) n1
  have n3 : |fl (1 / 2 * t) * k - 1 / 2 * T * k| ≤ 1 / 2 * T * k * (1 / 2 ^ 50 + 1 / 2 ^ 52 + 1 / 2 ^ 52) := by
    have := mul_close (l := (k : ℚ)) (by linarith) n2
    rw [abs_of_nonneg (by positivity : (0 : ℚ) ≤ k * (1 / 2 * T))] at this
    rw [mul_comm _ (k : ℚ), mul_comm _ (k : ℚ)]
    exact this
  have n4 := fl_close_pos (by linarith [show (1 : ℚ) / 2 ^ 200 ≤ 1 from by norm_num]) (by norm_num) n3
  have n5 := recip_close (F := (F : ℚ)) (by linarith) hD0 (by norm_num) n4
  rw [← hw] at n5
  have n6 := fl_close_pos hwlow (by norm_num) n5
  have n7 : |fl (F / fl (fl (1 / 2 * t) * k)) - w| ≤ w / 2 ^ 48 := by
    refine n6.trans ?_
    rw [show w / 2 ^ 48 = w * (1 / 2 ^ 48) from by ring]
    exact mul_le_mul_of_nonneg_left (by norm_num) hw0.le
  obtain ⟨m1, m2⟩ := abs_le.mp n7
  have small : w / 2 ^ 48 ≤ w / 2 := by
    gcongr
    norm_num
  have cond : ¬ (w ≤ 0 ∨ 1 ≤ w) := by
    rintro (h | h) <;> linarith
  have cond' : ¬ (fl (F / fl (fl (1 / 2 * t) * k)) ≤ 0 ∨ 1 ≤ fl (F / fl (fl (1 / 2 * t) * k))) := by
    rintro (h | h) <;> linarith
  have hflk : fl (k : ℚ) = k := fl_nat (hkB.trans (hB2.trans (by norm_num)))
  refine ⟨?_, fl (F / fl (fl (1 / 2 * t) * k)), n7, ?_⟩
  · unfold bitStream
    simp only [href, toRate_nat, hrb, Int.cast_natCast, ← hw, if_neg cond]
  · unfold bitStreamR bitStream
    simp only [hrefR, href, h1, h2, h3, toRate_nat, hrb, Int.cast_natCast, ← hw, if_neg cond, hflk, if_neg cond']
    cases bits <;> rfl

/-! ## Calls within an environment -/

/-- The keywords `samplerate=S, bitrate=B, num_t=n`. -/
def rateKeywords (S B n : ℕ) : Overrides :=
  { samplerate := some (.given S), bitrate := some (.given B), num_t := some (.given n) }

theorem rates_of_env {S B n : ℕ} {e : Env} (h : Env.makeR fl (rateKeywords S B n) = .ok e) (hn1 : 2 ≤ n) (hn2 : n ≤ 2 ^ 50)
    (hS : 1 ≤ S) (hS2 : S ≤ 2 ^ 50) : ∃ s, e.samplerate = some s ∧ RateNear s S ∧ e.bitrate = some (B : ℚ) := by
  have hS0 : (S : ℚ) ≠ 0 := by
    have : (1 : ℚ) ≤ S := by exact_mod_cast hS
    linarith
  obtain ⟨s, h1, h2⟩ := C133_env _ e n S (fl (1 / S)) h rfl (.inl ⟨S, rfl, hS0, rfl⟩) rfl (.inl rfl) rfl hn1 hn2 hS hS2
  exact ⟨s, h1, h2, ((C107_bits_partial _ e h rfl).1 B rfl).1⟩

/-- C133 full statement: within `Environment(samplerate=S, bitrate=B, num_t=n)` the mean squared error is the one for the rates `S`
and `B`. -/
def C133_statement : Prop :=
  ∀ (S B n W : ℕ) (l b0 s0 : ℚ) (e : Env) (p t : List (Unit → ℝ)), 2 ≤ n → n ≤ 2 ^ 50 → 1 ≤ S → S ≤ 2 ^ 47 → 1 ≤ B → B ≤ 2 ^ 47 →
    W ≤ 2 ^ 40 → Env.makeR fl (rateKeywords S B n) = .ok e →
    mseLossR fl p t l W (resolveRate none (some e.bitrate) b0) (resolveRate none (some e.samplerate) s0) = mseLoss p t l W B S

/-- C133 is violated: at 252 GHz and 28 GHz (nine samples per bit) half a bit is four samples, not five. -/
theorem C133_violation : ¬ C133_statement := by
  intro h
  have key : okAnd (Env.makeR fl (rateKeywords (252 * 10 ^ 9) (28 * 10 ^ 9) 100)) (fun e =>
      decide (latencyPointsR fl (1 / 2) (resolveRate none (some e.bitrate) 0) (resolveRate none (some e.samplerate) 0) = 4 ∧
        warmupPointsR fl (0 : ℕ) (resolveRate none (some e.bitrate) 0) (resolveRate none (some e.samplerate) 0) = 0 ∧
        resolveRate none (some e.bitrate) 0 ≠ 0)) = true := by decide +kernel
  obtain ⟨e, he, hd⟩ := okAnd_iff.mp key
  obtain ⟨k1, k2, k3⟩ := of_decide_eq_true hd
  have hx := h (252 * 10 ^ 9) (28 * 10 ^ 9) 100 0 (1 / 2) 0 0 e (List.replicate 5 0 ++ [1]) (1 :: List.replicate 5 0)
    (by norm_num) (by norm_num) (by norm_num) (by norm_num) (by norm_num) (by norm_num) (by norm_num) he
  have e1 : latencyPoints (1 / 2) ((28 * 10 ^ 9 : ℕ) : ℚ) ((252 * 10 ^ 9 : ℕ) : ℚ) = 5 := by decide +kernel
  have e2 : warmupPoints ((0 : ℕ) : ℚ) ((28 * 10 ^ 9 : ℕ) : ℚ) ((252 * 10 ^ 9 : ℕ) : ℚ) = 0 := by decide +kernel
  have e3 : ((28 * 10 ^ 9 : ℕ) : ℚ) ≠ 0 := by norm_num
  unfold mseLossR mseLoss at hx
  simp only [k1, k2, k3, e1, e2, e3, if_false] at hx
  simp [broadcastTime, meanAll, List.replicate] at hx

theorem near_self (B : ℕ) : RateNear (B : ℚ) B := by
  unfold RateNear
  rw [sub_self, abs_zero]
  positivity

/-- C133 (what holds), calls within an environment: `Environment(samplerate=S, bitrate=B, num_t=n)` gives bit streams, mean squared errors
and bit error rates as for the rates `S` and `B`, unless the latency or the warmup is half a sample off a whole number of samples. -/
theorem C133_call_partial (rng : ℕ → List V) (butter : ℚ → List ℝ × List ℝ) (bits : BitsArg V) (S B n W m : ℕ) (l b0 s0 : ℚ) (θ : ℝ)
    (e : Env) (p t : List (ι → ℝ)) (hn1 : 2 ≤ n) (hn2 : n ≤ 2 ^ 50) (hS : 1 ≤ S) (hS2 : S ≤ 2 ^ 47) (hB : 1 ≤ B) (hB2 : B ≤ 2 ^ 47)
    (he : Env.makeR fl (rateKeywords S B n) = .ok e) :
    let b := resolveRate none (some e.bitrate) b0
    let s := resolveRate none (some e.samplerate) s0
    bitStreamR fl rng butter bits b s none = bitStream rng butter bits B S none ∧
      (W ≤ 2 ^ 50 → Clear (l * S / B) → Clear (W * S / B) → mseLossR fl p t l W b s = mseLoss p t l W B S) ∧
      (W ≤ 2 ^ 50 → S = m * Nat.gcd S B → m ≤ 2 ^ 44 → Clear (l * m) → W * m ≤ 2 ^ 44 →
        berLossR fl p t θ l W b s = berLoss p t θ l W B S) := by
  obtain ⟨s, h1, h2, h3⟩ := rates_of_env he hn1 hn2 hS (hS2.trans (by norm_num))
  have hb := near_self B
  simp only [h1, h3, resolveRate]
  exact ⟨C133_stream_partial rng butter bits B S _ _ hB2 hS2 hb h2,
    fun hW hl hw => C133_mse_partial p t l _ _ W B S hW hB hS hb h2 hl hw,
    fun hW hm hm2 hl hw => C133_ber_partial p t θ l _ _ W B S m hW hB hB2 hS hS2 hb h2 hm hm2 hl hw⟩

theorem clear_nat {m : ℕ} (h : m ≤ 2 ^ 44) : Clear (m : ℚ) := fun n _ => whole_margin m h n

/-- A quarter of a bit of eight samples is two samples. -/
example : ∃ e, Env.makeR fl (rateKeywords (224 * 10 ^ 9) (28 * 10 ^ 9) 100) = .ok e ∧ ∀ p t : List (Fin 3 → ℝ),
    mseLossR fl p t (1 / 4) (3 : ℕ) (resolveRate none (some e.bitrate) 0) (resolveRate none (some e.samplerate) 0) =
      mseLoss p t (1 / 4) (3 : ℕ) (28 * 10 ^ 9 : ℕ) (224 * 10 ^ 9 : ℕ) := by
  have key : okAnd (Env.makeR fl (rateKeywords (224 * 10 ^ 9) (28 * 10 ^ 9) 100)) (fun _ => true) = true := by decide +kernel
  obtain ⟨e, he, -⟩ := okAnd_iff.mp key
  refine ⟨e, he, fun p t => (C133_call_partial (V := ℝ) (fun _ => []) (fun _ => ([], [])) (.number 0) (224 * 10 ^ 9) (28 * 10 ^ 9) 100 3 8 (1 / 4) 0 0 0 e p t
    (by norm_num) (by norm_num) (by norm_num) (by norm_num) (by norm_num) (by norm_num) he).2.1 (by norm_num) ?_ ?_⟩
  · rw [show (1 / 4 : ℚ) * (224 * 10 ^ 9 : ℕ) / (28 * 10 ^ 9 : ℕ) = (2 : ℕ) from by norm_num]
    exact clear_nat (by norm_num)
  · rw [show ((3 : ℕ) : ℚ) * (224 * 10 ^ 9 : ℕ) / (28 * 10 ^ 9 : ℕ) = (24 : ℕ) from by norm_num]
    exact clear_nat (by norm_num)

/-- Rates in the proportion 7 to 2: seven refined samples per bit. -/
example : ∃ e, Env.makeR fl (rateKeywords (35 * 10 ^ 9) (10 ^ 10) 1000) = .ok e ∧ ∀ p t : List (Fin 3 → ℝ),
    berLossR fl p t (1 / 2) (3 / 7) (2 : ℕ) (resolveRate none (some e.bitrate) 0) (resolveRate none (some e.samplerate) 0) =
      berLoss p t (1 / 2) (3 / 7) (2 : ℕ) (10 ^ 10 : ℕ) (35 * 10 ^ 9 : ℕ) := by
  have key : okAnd (Env.makeR fl (rateKeywords (35 * 10 ^ 9) (10 ^ 10) 1000)) (fun _ => true) = true := by decide +kernel
  obtain ⟨e, he, -⟩ := okAnd_iff.mp key
  refine ⟨e, he, fun p t => (C133_call_partial (V := ℝ) (fun _ => []) (fun _ => ([], [])) (.number 0) (35 * 10 ^ 9) (10 ^ 10) 1000 2 7 (3 / 7) 0 0 (1 / 2) e p t
    (by norm_num) (by norm_num) (by norm_num) (by norm_num) (by norm_num) (by norm_num) he).2.2 (by norm_num) (by decide +kernel) (by norm_num) ?_ (by norm_num)⟩
  rw [show (3 / 7 : ℚ) * (7 : ℕ) = (3 : ℕ) from by norm_num]
  exact clear_nat (by norm_num)

/-- A cutoff of 20 GHz at 160 GHz: no refinement, four samples per bit. -/
example (bits : List ℝ) (butter : ℚ → List ℝ × List ℝ) : ∃ w' : ℚ, |w' - 1 / 4| ≤ 1 / 4 / 2 ^ 48 ∧
    bitStreamR fl (fun _ => []) butter (.array bits) (40 * 10 ^ 9 : ℕ) (160 * 10 ^ 9 : ℕ) (some (20 * 10 ^ 9 : ℕ)) =
      bitStream (fun _ => []) (fun _ => butter w') (.array bits) (40 * 10 ^ 9 : ℕ) (160 * 10 ^ 9 : ℕ) (some (20 * 10 ^ 9 : ℕ)) :=
  (C133_filtered_partial (V := ℝ) (fun _ => []) butter (.array bits) (40 * 10 ^ 9) (160 * 10 ^ 9) (20 * 10 ^ 9) (160 * 10 ^ 9) _ _
    (by norm_num) (by norm_num) (by norm_num) (by norm_num) (by norm_num) (by norm_num) (near_self _)
    (near_self _) (by norm_num) (1 / 4) (by decide +kernel)).2

/-- 252 GHz until the end of the 50th sample. -/
example : ∃ e, Env.makeR fl { samplerate := some (.given (252 * 10 ^ 9)), t1 := some (.given (1 / 2 ^ 32)) } = .ok e ∧
    ∃ s, e.samplerate = some s ∧ RateNear s (252 * 10 ^ 9 : ℕ) := by
  have key : okAnd (Env.makeR fl { samplerate := some (.given (252 * 10 ^ 9)), t1 := some (.given (1 / 2 ^ 32)) })
      (fun e => decide (2 ≤ e.num_t)) = true := by decide +kernel
  obtain ⟨e, he, h2⟩ := okAnd_iff.mp key
  exact ⟨e, he, (C133_interval _ e (252 * 10 ^ 9) _ _ he (by rintro ⟨q, hq⟩; cases hq) (by rintro ⟨q, hq⟩; cases hq) (.inr (.inl ⟨_, rfl⟩))
    (.inl ⟨_, rfl, by norm_num, rfl⟩) (by norm_num) (.inl rfl) (.inr rfl) rfl (of_decide_eq_true h2) (by norm_num) (by norm_num)).2⟩

end PT
