import Verif.Proof.Rounded32
import Verif.Props.RoundedSignal
import Verif.Model.Sim

/-! # C134: delays in time steps, in single precision -/

namespace PT
open Spec

namespace Spec

/-- A delay in time steps is not, up to rounding errors of single precision, half a time step off a whole number of time steps. -/
def Clear32 (x : ℚ) : Prop := ∀ n : ℤ, n ≠ 0 → (x + 1) / 2 ^ 21 < |x + 1 / 2 - n|

end Spec

/-- The rounding of the model is the rounding to the nearest single-precision number, ties to even. -/
theorem C134_rounding (x : ℚ) : Nearest32 x (fl32 x) ∧
    ∀ e, Spacing32 x e → |fl32 x - x| = 2 ^ e / 2 → ∃ m : ℤ, fl32 x = m * 2 ^ e ∧ m % 2 = 0 :=
  ⟨fl32_nearest x, fun _ h ht => fl32_tie h ht⟩

example : fl32 (1 / 10) = 13421773 / 134217728 ∧ fl32 (2 ^ 24 + 1) = 2 ^ 24 ∧ fl32 (2 ^ 24 + 3) = 2 ^ 24 + 4 ∧
    fl32 (1 / 2 ^ 150) = 0 ∧ fl32 (3 / 2 ^ 150) = 4 / 2 ^ 150 := by
  decide +kernel

theorem realTrunc_cast (q : ℚ) : realTrunc (q : ℝ) = pyTrunc q := by
  unfold realTrunc pyTrunc
  by_cases h : 0 ≤ q
  · rw [if_pos h, if_pos (by exact_mod_cast h), Rat.floor_cast]
  · rw [if_neg h, if_neg (by exact_mod_cast h), Rat.ceil_cast]

/-- Without rounding, these are the time steps of the simulation. -/
theorem C134_exact {W : Type} (p : Plant W) (i : Fin p.n) (ng L c dt : ℚ) (t : List ℝ) (h : p.delay i = ((ng * L / c : ℚ) : ℝ)) :
    stepsR id (delayR id id ng L c) dt = p.steps ⟨some (dt : ℝ), false, t⟩ i := by
  unfold Plant.steps Plant.seconds
  simp only [h, Bool.false_eq_true, if_false, mul_one]
  rw [show (((ng * L / c : ℚ) : ℝ) / (dt : ℝ) + 1 / 2) = ((ng * L / c / dt + 1 / 2 : ℚ) : ℝ) from by push_cast; ring, realTrunc_cast]
  rfl

theorem prod_close {a b A B ε δ : ℚ} (hA : 0 ≤ A) (hB : 0 ≤ B) (hε : 0 ≤ ε) (ha : |a - A| ≤ A * ε) (hb : |b - B| ≤ B * δ) :
    |a * b - A * B| ≤ A * B * (ε + δ + ε * δ) := by
  have e : a * b - A * B = (a - A) * B + A * (b - B) + (a - A) * (b - B) := by ring
  rw [e]
  refine (abs_add_le _ _).trans ?_
  have h1 : |(a - A) * B + A * (b - B)| ≤ A * ε * B + A * (B * δ) := by
    refine (abs_add_le _ _).trans ?_
    rw [abs_mul, abs_mul, abs_of_nonneg hA, abs_of_nonneg hB]
    gcongr
  have h2 : |(a - A) * (b - B)| ≤ A * ε * (B * δ) := by
    rw [abs_mul]
    exact mul_le_mul ha hb (abs_nonneg _) (by positivity)
  calc _ ≤ A * ε * B + A * (B * δ) + A * ε * (B * δ) := add_le_add h1 h2
    _ = _ := by ring

/-- C134 (what holds): the delay in time steps is that of exact arithmetic, unless it is half a time step off a whole number. -/
theorem C134_delay_partial (ng L c dt ng' L' s : ℚ) (hc : 1 ≤ c) (hc2 : c ≤ 2 ^ 30) (hng : 1 / 2 ^ 80 ≤ ng) (hL : L = 0 ∨ 1 / 2 ^ 80 ≤ L)
    (hdt : 1 / 2 ^ 80 ≤ dt) (hn : RateNear ng' ng) (hl : RateNear L' L) (hs : RateNear s dt) (hx : Clear32 (ng * L / c / dt)) :
    stepsR fl32 (delayR fl fl32 ng' L' c) s = pyTrunc (ng * L / c / dt + 1 / 2) := by
  have hng0 : 0 < ng := lt_of_lt_of_le (by norm_num) hng
  have hdt0 : 0 < dt := lt_of_lt_of_le (by norm_num) hdt
  have hc0 : 0 < c := by linarith
  have loose : ∀ {r R : ℚ}, RateNear r R → |r - R| ≤ R * (1 / 2 ^ 50) := by
    intro r R h
    refine h.trans (le_of_eq (by ring))
  have hs' : |s - dt| ≤ dt * (1 / 2 ^ 40) := (loose hs).trans (mul_le_mul_of_nonneg_left (by norm_num) hdt0.le)
  unfold delayR
  rcases hL with rfl | hL
  · have : L' = 0 := by
      have : |L' - 0| ≤ 0 / 2 ^ 50 := hl
      simpa using this
    subst this
    rw [mul_zero, fl_zero, zero_div, fl_zero, mul_zero, zero_div]
    rw [mul_zero, zero_div] at hx
    exact steps_same le_rfl hdt (by norm_num) hs' hx
  · have hL0 : 0 < L := lt_of_lt_of_le (by norm_num) hL
    have p0 : 1 / 2 ^ 160 ≤ ng * L := by
      calc (1 : ℚ) / 2 ^ 160 = 1 / 2 ^ 80 * (1 / 2 ^ 80) := by norm_num
        _ ≤ ng * L := mul_le_mul hng hL (by norm_num) hng0.le
    have p1 := prod_close hng0.le hL0.le (by norm_num) (loose hn) (loose hl)
    have p2 := fl_close_pos (le_trans (by norm_num) p0) (by norm_num) p1
    have p3 : |fl (ng' * L') / c - ng * L / c| ≤ ng * L / c * (1 / 2 ^ 50 + 1 / 2 ^ 50 + 1 / 2 ^ 50 * (1 / 2 ^ 50) + 1 / 2 ^ 52) := by
      rw [← sub_div, abs_div, abs_of_pos hc0, div_mul_eq_mul_div]
      gcongr
    have p4 : 1 / 2 ^ 200 ≤ ng * L / c := by
      rw [le_div_iff₀ hc0]
      have : (1 : ℚ) / 2 ^ 200 * c ≤ 1 / 2 ^ 200 * 2 ^ 30 := by gcongr
      exact this.trans (le_trans (by norm_num) p0)
    have p5 := fl_close_pos p4 (by norm_num) p3
    have hX : 0 ≤ ng * L / c := by positivity
    refine steps_same hX hdt (p5.trans ?_) hs' hx
    have : ng * L / c * (1 / 2 ^ 50 + 1 / 2 ^ 50 + 1 / 2 ^ 50 * (1 / 2 ^ 50) + 1 / 2 ^ 52 + 1 / 2 ^ 52) ≤ ng * L / c * (1 / 2 ^ 40) :=
      mul_le_mul_of_nonneg_left (by norm_num) hX
    linarith [show (0 : ℚ) ≤ 1 / 2 ^ 147 from by norm_num]

theorem clear32_nat {m : ℕ} (h : m ≤ 10 ^ 6) : Clear32 (m : ℚ) := by
  intro n _
  have hmq : (m : ℚ) ≤ 10 ^ 6 := by exact_mod_cast h
  have a : ((m : ℚ) + 1) / 2 ^ 21 ≤ (10 ^ 6 + 1) / 2 ^ 21 := by gcongr
  have b : (10 ^ 6 + 1 : ℚ) / 2 ^ 21 < 1 / 2 := by norm_num
  rcases le_or_gt n m with hk | hk
  · have : (n : ℚ) ≤ m := by exact_mod_cast hk
    rw [abs_of_nonneg (by linarith)]
    linarith
  · have : (m : ℚ) + 1 ≤ n := by exact_mod_cast hk
    rw [abs_of_nonpos (by linarith)]
    linarith

/-- The keywords `dt=d, num_t=n`. -/
def stepKeywords (d : ℚ) (n : ℕ) : Overrides := { dt := some (.given d), num_t := some (.given n) }

theorem step_of_env {d : ℚ} {n : ℕ} {e : Env} (h : Env.makeR fl (stepKeywords (fl d) n) = .ok e) (hn1 : 2 ≤ n) (hn2 : n ≤ 2 ^ 50)
    (hd : 1 / 2 ^ 80 ≤ d) : e.c = 299792458 ∧ ∃ s, e.dt = some s ∧ RateNear s d := by
  have hd0 : 0 < d := lt_of_lt_of_le (by norm_num) hd
  have h1 := fl_close_pos (x := d) (X := d) (ε := 0) (le_trans (by norm_num) hd) (by norm_num) (by simp)
  obtain ⟨a1, a2⟩ := abs_le.mp h1
  have low : (2 : ℚ) ^ (-900 : ℤ) ≤ fl d := by
    have e1 : (2 : ℚ) ^ (-900 : ℤ) ≤ 1 / 2 ^ 81 := by
      rw [show (1 : ℚ) / 2 ^ 81 = 2 ^ (-81 : ℤ) from by norm_num]
      exact two_le (by norm_num)
    have e2 : d * (0 + 1 / 2 ^ 52) ≤ d * (1 / 2) := mul_le_mul_of_nonneg_left (by norm_num) hd0.le
    have e3 : (1 : ℚ) / 2 ^ 81 = 1 / 2 ^ 80 / 2 := by norm_num
    linarith
  obtain ⟨s, hs, hsd, -⟩ := C107_zero_partial _ e n (fl d) h rfl (.inr ⟨(by rintro ⟨q, hq⟩; cases hq), .inr rfl⟩) (.inl rfl) rfl hn1 hn2 low
  constructor
  · obtain ⟨c, br0, t0l, t, wl, f, sr, bl, hc, -, -, -, -, -, -, -, -, -, -, he⟩ := initR_ok h
    have : HasValue (((defaultArgsR fl).update (stepKeywords (fl d) n)).c) 299792458 := .inl rfl
    rw [he]
    exact value_unique hc this
  · refine ⟨s, hs, ?_⟩
    have := abs_tri s (fl d) d
    have h2 : fl d / 2 ^ 51 ≤ (d + d * (0 + 1 / 2 ^ 52)) / 2 ^ 51 := by gcongr; linarith
    have h3 : (d + d * (0 + 1 / 2 ^ 52)) / 2 ^ 51 + d * (0 + 1 / 2 ^ 52) ≤ d / 2 ^ 50 := by
      norm_num
      linarith
    unfold RateNear
    linarith

/-- C134 full statement: in `Environment(dt=d, num_t=n)`, a component with group index `ng` and length `L` delays by `ng L / c`, rounded to
the nearest number of time steps. -/
def C134_statement : Prop :=
  ∀ (d ng L s : ℚ) (n : ℕ) (e : Env), 2 ≤ n → n ≤ 2 ^ 50 → 1 / 2 ^ 80 ≤ d → 1 / 2 ^ 80 ≤ ng → 1 / 2 ^ 80 ≤ L →
    Env.makeR fl (stepKeywords (fl d) n) = .ok e → e.dt = some s →
    stepsR fl32 (delayR fl fl32 (fl ng) (fl L) e.c) s = pyTrunc (ng * L / 299792458 / d + 1 / 2)

/-- C134 is violated: with a time step of 1 ps, a waveguide of 3.05 mm with group index 2.99792458, whose delay is 30.5 ps, delays by 30
time steps, not by 31. -/
theorem C134_violation : ¬ C134_statement := by
  intro h
  have key : okAnd (Env.makeR fl (stepKeywords (fl (1 / 10 ^ 12)) 100)) (fun e =>
      match e.dt with
      | some s => decide (stepsR fl32 (delayR fl fl32 (fl (299792458 / 10 ^ 8)) (fl (305 / 10 ^ 5)) e.c) s = 30)
      | none => false) = true := by decide +kernel
  obtain ⟨e, he, hd⟩ := okAnd_iff.mp key
  obtain ⟨-, s, hs, -⟩ := step_of_env he (by norm_num) (by norm_num) (by norm_num)
  rw [hs] at hd
  have h30 := of_decide_eq_true hd
  have := h (1 / 10 ^ 12) (299792458 / 10 ^ 8) (305 / 10 ^ 5) s 100 e (by norm_num) (by norm_num) (by norm_num) (by norm_num) (by norm_num) he hs
  rw [h30] at this
  revert this
  decide +kernel

/-- C134 is violated: a delay of 8388609 time steps becomes one of 8388610. -/
theorem C134_long_violation : ¬ C134_statement := by
  intro h
  have key : okAnd (Env.makeR fl (stepKeywords (fl (1 / 10 ^ 12)) 100)) (fun e =>
      match e.dt with
      | some s => decide (stepsR fl32 (delayR fl fl32 (fl (299792458 / 10 ^ 8)) (fl (8388609 / 10 ^ 4)) e.c) s = 8388610)
      | none => false) = true := by decide +kernel
  obtain ⟨e, he, hd⟩ := okAnd_iff.mp key
  obtain ⟨-, s, hs, -⟩ := step_of_env he (by norm_num) (by norm_num) (by norm_num)
  rw [hs] at hd
  have h30 := of_decide_eq_true hd
  have := h (1 / 10 ^ 12) (299792458 / 10 ^ 8) (8388609 / 10 ^ 4) s 100 e (by norm_num) (by norm_num) (by norm_num) (by norm_num) (by norm_num) he hs
  rw [h30] at this
  revert this
  decide +kernel

theorem fl_near {x : ℚ} (h : 1 / 2 ^ 80 ≤ x) : RateNear (fl x) x := by
  have h0 : 0 < x := lt_of_lt_of_le (by norm_num) h
  have h1 := fl_close_pos (x := x) (X := x) (ε := 0) (le_trans (by norm_num) h) (by norm_num) (by simp)
  refine h1.trans ?_
  rw [show x / 2 ^ 50 = x * (1 / 2 ^ 50) from by ring]
  exact mul_le_mul_of_nonneg_left (by norm_num) h0.le

/-- C134 (what holds), in an environment: the delay in time steps is the exact one unless it is half a time step off a whole number; a delay
of up to a million whole time steps is exact. -/
theorem C134_call_partial (d ng L s : ℚ) (n : ℕ) (e : Env) (hn1 : 2 ≤ n) (hn2 : n ≤ 2 ^ 50) (hd : 1 / 2 ^ 80 ≤ d) (hng : 1 / 2 ^ 80 ≤ ng)
    (hL : L = 0 ∨ 1 / 2 ^ 80 ≤ L) (he : Env.makeR fl (stepKeywords (fl d) n) = .ok e) (hs : e.dt = some s) :
    (Clear32 (ng * L / 299792458 / d) →
      stepsR fl32 (delayR fl fl32 (fl ng) (fl L) e.c) s = pyTrunc (ng * L / 299792458 / d + 1 / 2)) ∧
    ∀ N : ℕ, N ≤ 10 ^ 6 → ng * L / 299792458 = N * d → stepsR fl32 (delayR fl fl32 (fl ng) (fl L) e.c) s = N := by
  obtain ⟨hc, s', hs', hsd⟩ := step_of_env he hn1 hn2 hd
  obtain rfl : s' = s := by rw [hs] at hs'; exact (Option.some.inj hs').symm
  have hd0 : 0 < d := lt_of_lt_of_le (by norm_num) hd
  have hl : RateNear (fl L) L := by
    rcases hL with rfl | h
    · rw [fl_zero]
      simp [RateNear]
    · exact fl_near h
  have main : Clear32 (ng * L / 299792458 / d) →
      stepsR fl32 (delayR fl fl32 (fl ng) (fl L) e.c) s' = pyTrunc (ng * L / 299792458 / d + 1 / 2) := by
    intro hx
    rw [hc]
    exact C134_delay_partial ng L 299792458 d _ _ _ (by norm_num) (by norm_num) hng hL hd (fl_near hng) hl hsd hx
  refine ⟨main, fun N hN h => ?_⟩
  have e1 : ng * L / 299792458 / d = N := by
    rw [h]
    field_simp
  rw [main (by rw [e1]; exact clear32_nat hN), e1]
  exact toRate_nat N

/-- The buffer is exactly as long as the longest delay requires, whatever the rounding of the tensor operations, as long as it respects
the order. -/
theorem C134_buffer (rt : ℚ → ℚ) (hm : ∀ x y, x ≤ y → rt x ≤ rt y) (h0 : rt 0 = 0) (d : ℚ) (ds : List ℚ) (dt : ℚ) (hdt : 0 < dt)
    (hpos : ∀ x ∈ d :: ds, 0 ≤ x) :
    (∀ x ∈ d :: ds, 0 ≤ stepsR rt x dt ∧ stepsR rt x dt < bufferLengthR rt d ds dt) ∧
      ∃ x ∈ d :: ds, stepsR rt x dt + 1 = bufferLengthR rt d ds dt := by
  have trunc_mono : ∀ x y : ℚ, 0 ≤ x → x ≤ y → pyTrunc x ≤ pyTrunc y := by
    intro x y hx hxy
    rw [pyTrunc_nonneg hx, pyTrunc_nonneg (hx.trans hxy)]
    exact Int.floor_le_floor hxy
  have hdt0 : 0 ≤ rt dt := by rw [← h0]; exact hm _ _ hdt.le
  have nonneg : ∀ x, 0 ≤ x → 0 ≤ rt (rt (x / rt dt) + 1 / 2) := by
    intro x hx
    have h1 : 0 ≤ rt (x / rt dt) := by rw [← h0]; exact hm _ _ (div_nonneg hx hdt0)
    have h2 : rt 0 ≤ rt (rt (x / rt dt) + 1 / 2) := hm _ _ (by linarith)
    rwa [h0] at h2
  have mono : ∀ x y, 0 ≤ x → x ≤ y → stepsR rt x dt ≤ stepsR rt y dt := by
    intro x y hx hxy
    refine trunc_mono _ _ (nonneg x hx) (hm _ _ ?_)
    have := hm _ _ (div_le_div_of_nonneg_right hxy hdt0)
    linarith
  have fold : ∀ (l : List ℚ) (a : ℚ), a ≤ l.foldl max a ∧ (∀ x ∈ l, x ≤ l.foldl max a) ∧ (l.foldl max a = a ∨ l.foldl max a ∈ l) := by
    intro l
    induction l with
    | nil => intro a; simp
    | cons b l ih =>
      intro a
      obtain ⟨i1, i2, i3⟩ := ih (max a b)
      refine ⟨(le_max_left a b).trans i1, ?_, ?_⟩
      · intro x hx
        rcases List.mem_cons.mp hx with rfl | hx
        · exact (le_max_right a x).trans i1
        · exact i2 x hx
      · rw [List.foldl_cons]
        rcases i3 with h | h
        · rw [h]
          rcases max_choice a b with h | h <;> rw [h]
          · exact .inl rfl
          · exact .inr (List.mem_cons_self ..)
        · exact .inr (List.mem_cons_of_mem _ h)
  obtain ⟨f1, f2, f3⟩ := fold ds d
  have hb : bufferLengthR rt d ds dt = stepsR rt (ds.foldl max d) dt + 1 := rfl
  refine ⟨fun x hx => ?_, ds.foldl max d, ?_, hb.symm⟩
  · have hle : x ≤ ds.foldl max d := by
      rcases List.mem_cons.mp hx with rfl | h
      · exact f1
      · exact f2 x h
    have := mono x _ (hpos x hx) hle
    refine ⟨?_, by omega⟩
    unfold stepsR
    rw [pyTrunc_nonneg (nonneg x (hpos x hx))]
    exact Int.floor_nonneg.mpr (nonneg x (hpos x hx))
  · rcases f3 with h | h
    · rw [h]; exact List.mem_cons_self ..
    · exact List.mem_cons_of_mem _ h

/-- The default waveguide of the documentation: 50 micrometres, group index 3.4, in steps of 10 fs. -/
example : ∃ e s, Env.makeR fl (stepKeywords (fl (1 / 10 ^ 14)) 1000) = .ok e ∧ e.dt = some s ∧
    stepsR fl32 (delayR fl fl32 (fl (34 / 10)) (fl (5 / 10 ^ 5)) e.c) s = 57 := by
  have key : okAnd (Env.makeR fl (stepKeywords (fl (1 / 10 ^ 14)) 1000)) (fun _ => true) = true := by decide +kernel
  obtain ⟨e, he, -⟩ := okAnd_iff.mp key
  obtain ⟨-, s, hs, -⟩ := step_of_env he (by norm_num) (by norm_num) (by norm_num)
  refine ⟨e, s, he, hs, ?_⟩
  rw [(C134_call_partial (1 / 10 ^ 14) (34 / 10) (5 / 10 ^ 5) s 1000 e (by norm_num) (by norm_num) (by norm_num) (by norm_num)
    (.inr (by norm_num)) he hs).1 ?_]
  · decide +kernel
  · intro n _
    rcases le_or_gt n 57 with h | h
    · have : (n : ℚ) ≤ 57 := by exact_mod_cast h
      rw [abs_of_nonneg (by norm_num; linarith)]
      norm_num
      linarith
    · have : (58 : ℚ) ≤ n := by exact_mod_cast h
      rw [abs_of_nonpos (by norm_num; linarith)]
      norm_num
      linarith

/-- A delay of exactly a thousand time steps. -/
example : ∃ e s, Env.makeR fl (stepKeywords (fl (1 / 10 ^ 12)) 23) = .ok e ∧ e.dt = some s ∧
    stepsR fl32 (delayR fl fl32 (fl (299792458 / 10 ^ 8)) (fl (1 / 10)) e.c) s = 1000 := by
  have key : okAnd (Env.makeR fl (stepKeywords (fl (1 / 10 ^ 12)) 23)) (fun _ => true) = true := by decide +kernel
  obtain ⟨e, he, -⟩ := okAnd_iff.mp key
  obtain ⟨-, s, hs, -⟩ := step_of_env he (by norm_num) (by norm_num) (by norm_num)
  exact ⟨e, s, he, hs, (C134_call_partial (1 / 10 ^ 12) (299792458 / 10 ^ 8) (1 / 10) s 23 e (by norm_num) (by norm_num) (by norm_num) (by norm_num)
    (.inr (by norm_num)) he hs).2 1000 (by norm_num) (by norm_num)⟩

/-- Three delays in single precision. -/
example : (∀ x ∈ [(1 / 3 : ℚ), 7 / 2, 2], 0 ≤ stepsR fl32 x (1 / 10) ∧ stepsR fl32 x (1 / 10) < bufferLengthR fl32 (1 / 3) [7 / 2, 2] (1 / 10)) ∧
    bufferLengthR fl32 (1 / 3) [7 / 2, 2] (1 / 10) = 36 := by
  refine ⟨(C134_buffer fl32 (fun _ _ h => fl32_mono h) fl32_zero (1 / 3) [7 / 2, 2] (1 / 10) (by norm_num) (by
    intro x hx
    simp only [List.mem_cons, List.not_mem_nil, or_false] at hx
    rcases hx with rfl | rfl | rfl <;> norm_num)).1, by decide +kernel⟩

end PT
