import Verif.Proof.RoundedEnv

/-!
# C105, C106, C107, C108: environments in floating-point arithmetic
-/

namespace PT
open Spec

/-! ## The rounding -/

/-- `fl` is the rounding of IEEE 754: to the nearest floating-point number, ties to the even one. -/
theorem C105_rounding (x : ℚ) : Nearest x (fl x) ∧
    ∀ e, Spacing x e → |fl x - x| = 2 ^ e / 2 → ∃ m : ℤ, fl x = m * 2 ^ e ∧ m % 2 = 0 :=
  ⟨fl_nearest x, fun _ h ht => fl_tie h ht⟩

example : fl (1 / 10) = 3602879701896397 / 36028797018963968 ∧ fl (2 ^ 53 + 1) = 2 ^ 53 ∧ fl (2 ^ 53 + 3) = 2 ^ 53 + 4 := by
  decide +kernel

/-- Without rounding this is the constructor of the other properties. -/
theorem C105_exact (a : Args) : Env.initR id a = Env.init a := by
  have e1 : ∀ x y, pyDivR id x y = pyDiv x y := fun x y => by unfold pyDivR; cases pyDiv x y <;> rfl
  have e2 : ∀ x l, npDivArrR id x l = npDivArr x l := fun x l => by
    unfold npDivArrR
    cases npDivArr x l
    · rfl
    · simp [Except.map]
  have e3 : ∀ s e d, arangeR id s e d = arange s e d := fun s e d => by
    unfold arangeR arange
    simp only [e1, id]
  have e4 : ∀ s e n, linspaceOpenR id s e n = linspaceOpen s e n := fun s e n => by
    unfold linspaceOpenR linspaceOpen
    split
    · rfl
    · simp only [id, Except.ok.injEq]
      refine List.map_congr_left fun i _ => ?_
      split
      · rename_i h
        have h0 : (i : ℚ) / n * (e - s) = i * ((e - s) / n) := by ring
        rw [h0]
        ring
      · ring
  have e5 : ∀ l, firstStepR id l = firstStep l := fun l => by
    unfold firstStepR
    cases firstStep l <;> rfl
  have e6 : ∀ l, timeEndR id l = timeEnd l := fun l => by
    unfold timeEndR timeEnd
    rw [e5]
    rfl
  have e7 : ∀ l, gridEndR id l = gridEnd l := fun l => rfl
  have e8 : ∀ x, recipOptR id x = recipOpt x := fun x => by
    cases x
    · rfl
    · unfold recipOptR recipOpt
      simp only [e1]
  have e9 : bitrateOfR id a = bitrateOf a := by
    unfold bitrateOfR bitrateOf
    simp only [e1]
    cases a.bitrate <;> rfl
  have e10 : timeArrR id a = timeArr a := by
    unfold timeArrR timeArr stepArgR stepArg
    simp only [e1, e3, e4, id]
  have e11 : ∀ c, wlArrR id c a = wlArr c a := fun c => by
    unfold wlArrR wlArr wlArgOfR wlArgOf wlBoundOfR wlBoundOf wlStepOfR wlStepOf freqTopR freqTop freqBottomR freqBottom
    have e12 : divArgR id c a.f = divArg c a.f := by
      rcases a.f with (_ | _ | _) | (_ | _ | _) | _ <;> simp only [divArgR, divArg, e1, e2]
    simp only [e1, e2, e3, e12, id]
  unfold Env.initR Env.init
  simp only [e2, e5, e6, e7, e8, e9, e10, e11]

example : Env.initR id defaultArgs = Env.init defaultArgs := C105_exact _

/-! ## C105 -/

/-- C105 full statement: `num_wl = N` gives `N` wavelengths. -/
def C105_statement : Prop :=
  ∀ (a : Args) (e : Env) (N : ℕ), Env.initR fl a = .ok e → a.num_wl = .given N → 1 ≤ N → e.num_wl = N

/-- C105 is violated: `Environment(num_wl=51)` has 50 wavelengths. -/
theorem C105_violation : ¬ C105_statement := by
  intro h
  have key : okAnd (Env.makeR fl { num_wl := some (.given 51) }) (fun e => e.num_wl == 50) = true := by decide +kernel
  obtain ⟨e, he, h50⟩ := okAnd_iff.mp key
  have := h _ e 51 he rfl (by norm_num)
  rw [beq_iff_eq] at h50
  omega

/-- The bound of the wavelength range given by the arguments, computed in floating-point numbers. -/
def FloatBound (c : ℚ) (wlArg fArg : Arg ℚ) (x : ℚ) : Prop :=
  (∃ q, fArg = .given q ∧ q ≠ 0 ∧ x = fl (c / q)) ∨ ((¬ ∃ q, fArg = .given q) ∧ HasValue wlArg x)

theorem floatBound_ok {c : ℚ} {w f : Arg ℚ} {x : ℚ} : wlBoundOfR fl c f w = .ok x ↔ FloatBound c w f x := by
  unfold FloatBound wlBoundOfR
  cases f with
  | given q => simp [Arg.isDefault, show (Arg.given q).val = .ok q from rfl, pyDivR_ok]
  | dflt q => simp [Arg.isDefault, val_eq_ok]
  | none => simp [Arg.isDefault, val_eq_ok]

/-- C105 (what holds): there are `N` or `N - 1` wavelengths, `N` if it is a power of two, and they are where they should be up to
the precision of the numbers. -/
theorem C105_partial (a : Args) (e : Env) (c : ℚ) (N : ℕ) (x y : ℚ) (h : Env.initR fl a = .ok e)
    (hN : a.num_wl = .given N) (hc : HasValue a.c c) (hN1 : 1 ≤ N) (hN2 : N ≤ 2 ^ 50)
    (hx : FloatBound c a.wl0 a.f0 x) (hy : FloatBound c a.wl1 a.f1 y) (hxy : 2 ^ (-900 : ℤ) ≤ |y - x|) :
    N - 1 ≤ e.num_wl ∧ e.num_wl ≤ N ∧ ((∃ k, N = 2 ^ k) → e.num_wl = N) ∧ e.num_f = e.num_wl ∧
      ∀ (i : ℕ) (w : ℚ), e.wl[i]? = some w → |w - (x + i * ((y - x) / N))| ≤ (|x| + |y|) / 2 ^ 49 := by
  obtain ⟨c', br0, t0l, t, wl, f, sr, bl, hc', hchk, hbr, ht, htt, htne, hwl, hwne, hsr, hbl, hf, he⟩ := initR_ok h
  obtain rfl := value_unique hc hc'
  have hNC := (checkArgs_ok.mp hchk).1
  have hsup : Supplied a .num_wl := ⟨N, hN⟩
  have no : ∀ k, (ArgName.num_wl, k) ∈ exclusivePairs ∨ (k, ArgName.num_wl) ∈ exclusivePairs →
      ¬ Supplied a k := by
    intro k hk hs
    rcases hk with hk | hk
    · exact hNC ⟨_, hk, hsup, hs⟩
    · exact hNC ⟨_, hk, hs, hsup⟩
  have d1 : a.wl.isDefault = true := (isDefault_iff _).mpr (no .wl (by decide))
  have d2 : a.f.isDefault = true := (isDefault_iff _).mpr (no .f (by decide))
  have d3 : a.num_f.isDefault = true := (isDefault_iff _).mpr (no .num_f (by decide))
  have d4 : a.df.isDefault = true := (isDefault_iff _).mpr (no .df (by decide))
  have d5 : a.num_wl.isDefault = false := (isDefault_false_iff _).mpr hsup
  unfold wlArrR at hwl
  rw [if_neg] at hwl
  swap
  · simp only [d1, d2, Bool.not_true, Bool.or_false, Bool.false_or, decide_eq_true_eq]
    rw [count_zero]
    simp [d5]
  unfold wlStepOfR at hwl
  simp only [d3, d4, d5, Bool.not_true, Bool.false_eq_true, if_false, Bool.not_false, if_true] at hwl
  rw [floatBound_ok.mpr hx, floatBound_ok.mpr hy] at hwl
  simp only [ok_bind, hN, Arg.val, bind_eq_ok, pyDivR_ok, pure_eq_ok] at hwl
  obtain ⟨dwl, ⟨-, rfl⟩, l, hl, hl2⟩ := hwl
  cases hl2
  have hfN : fl ((N : ℤ) : ℚ) = N := by
    rw [Int.cast_natCast]
    exact fl_nat (hN2.trans (by norm_num))
  rw [hfN] at hl
  obtain ⟨hd0, hlen, hval⟩ := arangeR_ok hl
  have hNq : (1 : ℚ) ≤ N := by exact_mod_cast hN1
  have hNq2 : (N : ℚ) ≤ 2 ^ 50 := by exact_mod_cast hN2
  -- the rounded difference
  have hP : 2 ^ (-900 : ℤ) ≤ |x| + |y| := hxy.trans (by have := abs_sub y x; linarith)
  have hyx : |y - x| ≤ |x| + |y| := by have := abs_sub y x; linarith
  have p9 := two_pos (-900)
  have hDrel : |fl (y - x) - (y - x)| ≤ |y - x| / 2 ^ 53 := fl_rel (normal_of (by
    refine le_trans ?_ hxy
    rw [div_le_iff₀ (by norm_num)]
    nlinarith))
  set D := fl (y - x) with hD
  have hDlow : 2 ^ (-900 : ℤ) / 2 ≤ |D| := by
    have := abs_near (show |(y - x) - D| ≤ |y - x| / 2 ^ 53 from by rw [abs_sub_comm]; exact hDrel)
    nlinarith
  have hD0 : D ≠ 0 := by
    intro h0
    rw [h0, abs_zero] at hDlow
    linarith
  have hDN : Normal (D / N) := normal_of (by
    rw [abs_div, abs_of_pos (by linarith : (0 : ℚ) < N), div_le_div_iff₀ (by norm_num) (by linarith)]
    nlinarith)
  set s := fl (D / N) with hs
  have hsrel : |s - D / N| ≤ |D / N| / 2 ^ 53 := fl_rel hDN
  have hDs : Normal (D / s) := by
    have h1 := abs_near hsrel
    have hsp : 0 < |s| := abs_pos.mpr hd0
    refine normal_of ?_
    rw [abs_div, div_le_div_iff₀ (by norm_num) hsp]
    have h2 : |D / N| ≤ |D| := by
      rw [abs_div, abs_of_pos (by linarith : (0 : ℚ) < N)]
      exact div_le_self (abs_nonneg _) hNq
    have h3 : |s| ≤ 2 * |D| := by linarith [abs_nonneg D]
    have h4 : (2 : ℚ) ^ (-900 : ℤ) ≤ 1 := by
      rw [show (1 : ℚ) = 2 ^ (0 : ℤ) from rfl]
      exact two_le (by norm_num)
    nlinarith [abs_nonneg D]
  have hq := parts_fit hD0 hN1 hN2 hsrel (fl_rel hDs)
  have hq0 : 0 ≤ fl (D / s) := by linarith [hq.1]
  rw [abs_of_nonneg hq0] at hlen
  obtain ⟨hr1, hr2⟩ := floor_range hq.1 hq.2 hN1
  have hle : wl.length ≤ N := by rw [hlen]; omega
  obtain ⟨-, rfl⟩ := npDivArrR_ok.mp hf
  subst he
  refine ⟨by show _ ≤ wl.length; rw [hlen]; omega, hle, ?_, by simp, ?_⟩
  · rintro ⟨k, hk⟩
    show wl.length = N
    have hsx : s = D / N := by
      rw [hs, hk]
      push_cast
      refine fl_halves (fl_binary _) k ?_
      rw [hk] at hDN
      exact_mod_cast hDN
    have hqx : fl (D / s) = N := by
      rw [hsx, show D / (D / (N : ℚ)) = N from by field_simp]
      exact fl_nat (hN2.trans (by norm_num))
    rw [hlen, hqx, Nat.floor_natCast]
    omega
  · intro i w hw
    have hw' : wl[i]? = some w := hw
    have hi : i < wl.length := (List.getElem?_eq_some_iff.mp hw').1
    have hiN : i ≤ N := by omega
    rcases hval with hval | hval
    · rw [hval] at hw' hi
      have hi0 : i = 0 := by simpa using hi
      subst hi0
      simp only [List.getElem?_cons_zero, Option.some.injEq] at hw'
      rw [← hw']
      simp only [Nat.cast_zero, zero_mul, add_zero, sub_self, abs_zero]
      positivity
    · have := hval i w hw'
      rw [if_pos hq0, fl_nat (hiN.trans (hN2.trans (by norm_num)))] at this
      set P := |x| + |y| with hPdef
      set E := P / 2 ^ 51 with hE
      have hE0 : 0 ≤ E := by positivity
      have hEP : 4 * E ≤ P := by
        have : P / 2 ^ 51 ≤ P / 4 := by
          rw [div_le_div_iff₀ (by norm_num) (by norm_num)]
          nlinarith
        linarith
      have s1 : |D - (y - x)| ≤ E := fl_err_le (by linarith) hP
      have s2 : |N * s - D| ≤ E := fl_div_err (by have := abs_near s1; linarith) hP hN1 hN2
      have s3 : |N * s - (y - x)| ≤ 2 * E := by have := abs_tri (N * s) D (y - x); linarith
      have s4 := part_err hN1 hiN s3
      have s5 : |(i : ℚ) * ((y - x) / N)| ≤ P := by
        rw [show (i : ℚ) * ((y - x) / N) = i / N * (y - x) from by ring, abs_mul, abs_of_nonneg (by positivity)]
        have h1 : (i : ℚ) / N ≤ 1 := (div_le_one (by linarith)).mpr (by exact_mod_cast hiN)
        have h2 : (0 : ℚ) ≤ i / N := by positivity
        nlinarith [abs_nonneg (y - x)]
      have s6 : |fl (s * i) - s * i| ≤ E := fl_err_le (by
        have := abs_near s4
        rw [mul_comm s]
        linarith) hP
      have s7 : |fl (s * i) - i * ((y - x) / N)| ≤ 3 * E := by
        have := abs_tri (fl (s * i)) (s * i) (i * ((y - x) / N))
        rw [mul_comm s (i : ℚ)] at this s6
        rw [mul_comm s (i : ℚ)]
        linarith
      have s8 : |x + fl (s * i) - (x + i * ((y - x) / N))| ≤ 3 * E := by
        rw [add_sub_add_left_eq_sub]
        exact s7
      have s9 : |fl (x + fl (s * i)) - (x + fl (s * i))| ≤ E := fl_err_le (by
        have h1 := abs_near s8
        have h2 := abs_add_le x ((i : ℚ) * ((y - x) / N))
        have h3 : |x| ≤ P := by rw [hPdef]; linarith [abs_nonneg y]
        linarith) hP
      have := abs_tri w (x + fl (s * i)) (x + i * ((y - x) / N))
      rw [show P / 2 ^ 49 = 4 * E from by rw [hE]; ring]
      simp_all only
      linarith

example : ∃ e, Env.makeR fl { num_wl := some (.given 64) } = .ok e ∧ e.num_wl = 64 := by
  have key : okAnd (Env.makeR fl { num_wl := some (.given 64) }) (fun _ => true) = true := by decide +kernel
  obtain ⟨e, he, -⟩ := okAnd_iff.mp key
  refine ⟨e, he, (C105_partial _ e 299792458 64 (fl (15 / 10 ^ 7)) (fl (16 / 10 ^ 7)) he rfl (.inl rfl) (by norm_num) (by norm_num)
    (.inr ⟨(by rintro ⟨q, hq⟩; cases hq), .inl rfl⟩) (.inr ⟨(by rintro ⟨q, hq⟩; cases hq), .inl rfl⟩) ?_).2.2.1 ⟨6, by norm_num⟩⟩
  have : (1 : ℚ) / 2 ^ 30 ≤ |fl (16 / 10 ^ 7) - fl (15 / 10 ^ 7)| := by decide +kernel
  refine le_trans ?_ this
  rw [show (1 : ℚ) / 2 ^ 30 = 2 ^ (-30 : ℤ) from by norm_num]
  exact two_le (by norm_num)

/-! ## C106 -/

/-- C106 full statement: an interval of `k` time steps has `k` points. -/
def C106_statement : Prop :=
  ∀ (k : ℕ) (d : ℚ) (e : Env), 1 ≤ k → 0 < d →
    Env.makeR fl { dt := some (.given (fl d)), t1 := some (.given (fl (k * d))) } = .ok e → e.num_t = k

/-- C106 is violated: `Environment(dt=1e-14, t1=2.3e-13)` has 22 points in time. -/
theorem C106_violation : ¬ C106_statement := by
  intro h
  have key : okAnd (Env.makeR fl { dt := some (.given (fl (1 / 10 ^ 14))), t1 := some (.given (fl ((23 : ℕ) * (1 / 10 ^ 14)))) })
      (fun e => e.num_t == 22) = true := by decide +kernel
  obtain ⟨e, he, h22⟩ := okAnd_iff.mp key
  have := h 23 (1 / 10 ^ 14) e (by norm_num) (by norm_num) he
  rw [beq_iff_eq] at h22
  omega

/-- The time step requested by the arguments, computed in floating-point numbers. -/
def FloatStep (a : Args) (d : ℚ) : Prop :=
  (∃ r, a.samplerate = .given r ∧ r ≠ 0 ∧ d = fl (1 / r)) ∨ ((¬ ∃ r, a.samplerate = .given r) ∧ HasValue a.dt d)

theorem floatStep_ok {a : Args} {d : ℚ} : stepArgR fl a = .ok d ↔ FloatStep a d := by
  unfold FloatStep stepArgR
  cases h : a.samplerate with
  | given r => simp [Arg.isDefault, Arg.val, pyDivR_ok]
  | dflt r => simp [Arg.isDefault, val_eq_ok]
  | none => simp [Arg.isDefault, val_eq_ok]

theorem interval_grid {a : Args} {e : Env} {d x y : ℚ} (h : Env.initR fl a = .ok e)
    (hn : ¬ Supplied a .num_t) (ht' : ¬ Supplied a .t)
    (hs : Supplied a .dt ∨ Supplied a .samplerate ∨ Supplied a .t0 ∨ Supplied a .t1)
    (hd : FloatStep a d) (hx : HasValue a.t0 x) (hy : HasValue a.t1 y) (hfd : a.freqdomain = false) :
    x ≤ y ∧ e.num_t = e.t.length ∧ arangeR fl x y d = .ok e.t := by
  obtain ⟨c, br0, t0l, t, wl, f, sr, bl, hc, hchk, hbr, ht, htt, htne, hwl, -, -, -, -, he⟩ := initR_ok h
  rw [hfd] at htt
  simp only [Bool.false_eq_true, if_false] at htt
  subst htt
  obtain ⟨-, d', x', y', -, hx', hy', -, hxy⟩ := checkArgs_ok.mp hchk
  obtain rfl := value_unique hx hx'
  obtain rfl := value_unique hy hy'
  have hnd : a.num_t.isDefault = true := by rw [isDefault_iff]; exact hn
  rw [timeArrR_grid ht' (by tauto), floatStep_ok.mpr hd] at ht
  simp only [ok_bind, hnd, Bool.not_true, Bool.false_eq_true, if_false,
    val_eq_ok.mpr hx, val_eq_ok.mpr hy, pure_eq_ok] at ht
  rw [bind_eq_ok] at ht
  obtain ⟨l, hl, hl2⟩ := ht
  cases hl2
  subst he
  exact ⟨hxy, rfl, hl⟩

/-- C106 (what holds): the number of points is the number of steps that fit, or differs from it by one; it is this number unless
the interval is a whole number of steps up to the precision of the numbers; and the points are where they should be up to the
precision of the numbers. -/
theorem C106_partial (a : Args) (e : Env) (d x y : ℚ) (h : Env.initR fl a = .ok e)
    (hn : ¬ Supplied a .num_t) (ht' : ¬ Supplied a .t)
    (hs : Supplied a .dt ∨ Supplied a .samplerate ∨ Supplied a .t0 ∨ Supplied a .t1)
    (hd : FloatStep a d) (hx : HasValue a.t0 x) (hy : HasValue a.t1 y) (hfd : a.freqdomain = false)
    (hd0 : 2 ^ (-900 : ℤ) ≤ d) (hq : (y - x) / d ≤ 2 ^ 48) :
    e.num_t ≤ max 1 ⌊(y - x) / d⌋₊ + 1 ∧ max 1 ⌊(y - x) / d⌋₊ ≤ e.num_t + 1 ∧
      ((∀ n : ℕ, 1 ≤ n → (y - x) / d / 2 ^ 50 < |(y - x) / d - n|) → e.num_t = max 1 ⌊(y - x) / d⌋₊) ∧
      ∀ (i : ℕ) (w : ℚ), e.t[i]? = some w → |w - (x + i * d)| ≤ (|x| + |y| + d) / 2 ^ 50 := by
  obtain ⟨hxy, hlen', hl⟩ := interval_grid h hn ht' hs hd hx hy hfd
  obtain ⟨hdne, hlen, hval⟩ := arangeR_ok hl
  have p9 := two_pos (-900)
  have hdp : 0 < d := by linarith
  have hV : 0 ≤ y - x := by linarith
  have hQ0 : 0 ≤ (y - x) / d := by positivity
  have herr := quot_err hd0 hV hq
  set Q := (y - x) / d with hQ
  set q := fl (fl (y - x) / d) with hqdef
  have hq0 : 0 ≤ q := fl_nonneg (div_nonneg (fl_nonneg hV) hdp.le)
  rw [abs_of_nonneg hq0] at hlen
  have hclose : |q - Q| < 1 := by
    refine lt_of_le_of_lt herr ?_
    have : Q / 2 ^ 51 ≤ 1 / 2 := by
      rw [div_le_div_iff₀ (by norm_num) (by norm_num)]
      linarith
    have h2 : (1 : ℚ) / 2 ^ 100 < 1 / 2 := by norm_num
    linarith
  have f1 := floor_close hq0 hclose
  have f2 := floor_close hQ0 (by rw [abs_sub_comm]; exact hclose)
  rw [hlen', hlen]
  refine ⟨by omega, by omega, ?_, ?_⟩
  · intro hno
    congr 1
    by_cases hhalf : Q < 1 / 2
    · have h1 : q < 1 := by
        have := (abs_le.mp herr).2
        have h2 : (1 : ℚ) / 2 ^ 100 < 1 / 4 := by norm_num
        have h3 : Q / 2 ^ 51 ≤ 1 / 4 := by
          rw [div_le_div_iff₀ (by norm_num) (by norm_num)]
          linarith
        linarith
      rw [Nat.floor_eq_zero.mpr h1, Nat.floor_eq_zero.mpr (by linarith)]
    · push Not at hhalf
      refine floor_same hq0 hQ0 fun n hn => lt_of_le_of_lt ?_ (hno n hn)
      rw [abs_sub_comm]
      refine herr.trans ?_
      have e1 : Q / 2 ^ 50 = Q / 2 ^ 51 + Q / 2 ^ 51 := by ring
      have e2 : (1 : ℚ) / 2 ^ 100 ≤ Q / 2 ^ 51 := by
        rw [div_le_div_iff₀ (by norm_num) (by norm_num)]
        linarith
      linarith
  · intro i w hw
    rcases hval with hval | hval
    · rw [hval] at hw
      have hi0 : i = 0 := by
        have := (List.getElem?_eq_some_iff.mp hw).1
        simpa using this
      subst hi0
      simp only [List.getElem?_cons_zero, Option.some.injEq] at hw
      rw [← hw]
      simp only [Nat.cast_zero, zero_mul, add_zero, sub_self, abs_zero]
      positivity
    · have hi : i < e.t.length := (List.getElem?_eq_some_iff.mp hw).1
      have hiQ : (i : ℚ) ≤ Q + 1 := by
        have h1 : i ≤ ⌊Q⌋₊ + 1 := by omega
        have h2 : (i : ℚ) ≤ ⌊Q⌋₊ + 1 := by exact_mod_cast h1
        linarith [Nat.floor_le hQ0]
      have hi53 : i ≤ 2 ^ 53 := by
        have : (i : ℚ) ≤ 2 ^ 53 := by linarith
        exact_mod_cast this
      have hv := hval i w hw
      rw [if_pos hq0, fl_nat hi53] at hv
      have hdi : |d * i| ≤ |y - x| + d := by
        rw [abs_of_nonneg (by positivity), abs_of_nonneg hV]
        have : d * Q = y - x := by rw [hQ]; field_simp
        nlinarith
      have hyx : |y - x| ≤ |x| + |y| := by have := abs_sub y x; linarith
      set P := |x| + |y| + d with hP
      have hPd : 2 ^ (-900 : ℤ) ≤ P := by have := abs_nonneg x; have := abs_nonneg y; linarith
      have s1 : |fl (d * i) - d * i| ≤ P / 2 ^ 51 := fl_err_le (by have := abs_nonneg x; have := abs_nonneg y; linarith) hPd
      have hE : P / 2 ^ 51 ≤ P / 4 := by
        rw [div_le_div_iff₀ (by norm_num) (by norm_num)]
        nlinarith
      have s2 : |fl (x + fl (d * i)) - (x + fl (d * i))| ≤ P / 2 ^ 51 := fl_err_le (by
        have h1 := abs_near s1
        have h2 := abs_add_le x (fl (d * i))
        have := abs_nonneg y
        have := abs_nonneg x
        linarith) hPd
      have s3 := abs_tri w (x + fl (d * i)) (x + i * d)
      have s4 : |x + fl (d * i) - (x + i * d)| ≤ P / 2 ^ 51 := by
        rw [add_sub_add_left_eq_sub, mul_comm (i : ℚ)]
        exact s1
      rw [← hv] at s2
      have e1 : P / 2 ^ 50 = P / 2 ^ 51 + P / 2 ^ 51 := by ring
      linarith

/-- C106 (what holds), for an interval given as a multiple of the time step: at most one point is missing. -/
theorem C106_multiple_partial (k : ℕ) (d : ℚ) (e : Env) (hk : 1 ≤ k) (hk2 : k ≤ 2 ^ 47) (hd : 2 ^ (-900 : ℤ) ≤ d)
    (h : Env.makeR fl { dt := some (.given (fl d)), t1 := some (.given (fl (k * d))) } = .ok e) :
    k - 1 ≤ e.num_t ∧ e.num_t ≤ k := by
  obtain ⟨-, hlen', hl⟩ := interval_grid (d := fl d) (x := 0) (y := fl (k * d)) h (by rintro ⟨q, hq⟩; cases hq)
    (by rintro ⟨q, hq⟩; cases hq) (.inl ⟨_, rfl⟩) (.inr ⟨(by rintro ⟨q, hq⟩; cases hq), .inr rfl⟩) (.inl rfl) (.inr rfl) rfl
  obtain ⟨hdne, hlen, -⟩ := arangeR_ok hl
  have p9 := two_pos (-900)
  have hd0 : 0 < d := by linarith
  have hk1 : (1 : ℚ) ≤ k := by exact_mod_cast hk
  have hk3 : (k : ℚ) ≤ 2 ^ 47 := by exact_mod_cast hk2
  have hkd : d ≤ k * d := by nlinarith
  have small : (2 : ℚ) ^ (-900 : ℤ) / 2 ^ 60 ≤ 2 ^ (-900 : ℤ) := div_le_self p9.le (by norm_num)
  have r1 := fl_rel (x := d) (normal_of (by rw [abs_of_pos hd0]; linarith))
  have r2 := fl_rel (x := k * d) (normal_of (by rw [abs_of_pos (by linarith)]; linarith))
  rw [abs_of_pos hd0] at r1
  rw [abs_of_pos (show 0 < k * d by linarith)] at r2
  have hD : 2 ^ (-900 : ℤ) ≤ fl d := by
    have := (fl_nearest d).2 (2 ^ (-900 : ℤ)) ⟨1, -900, by norm_num, by norm_num, by norm_num⟩
    rw [abs_of_nonpos (show (2 : ℚ) ^ (-900 : ℤ) - d ≤ 0 by linarith)] at this
    linarith [(abs_le.mp this).1]
  have hD0 : 0 < fl d := by linarith
  have hV : 0 ≤ fl (k * d) := fl_nonneg (by linarith)
  rw [sub_zero] at hlen
  have hQ : |fl (k * d) / fl d - k| ≤ 1 / 8 := by
    rw [div_sub' hD0.ne', abs_div, abs_of_pos hD0, div_le_iff₀ hD0]
    obtain ⟨a1, a2⟩ := abs_le.mp r1
    obtain ⟨b1, b2⟩ := abs_le.mp r2
    have c1 : k * d / 2 ^ 53 ≤ d / 2 ^ 6 := by
      rw [div_le_div_iff₀ (by norm_num) (by norm_num)]
      nlinarith
    have c2 : k * (d / 2 ^ 53) = k * d / 2 ^ 53 := by ring
    have c3 : k * (fl d - d) ≤ k * (d / 2 ^ 53) := mul_le_mul_of_nonneg_left a2 (by linarith)
    have c4 : k * (-(d / 2 ^ 53)) ≤ k * (fl d - d) := mul_le_mul_of_nonneg_left a1 (by linarith)
    have c5 : d / 2 ^ 53 ≤ d / 2 := by
      rw [div_le_div_iff₀ (by norm_num) (by norm_num)]
      nlinarith
    have c6 : d / 2 ^ 6 = 1 / 64 * d := by ring
    rw [abs_le]
    constructor <;> linarith
  obtain ⟨q1, q2⟩ := abs_le.mp hQ
  have herr := quot_err hD hV (by linarith)
  have hfl : fl (fl (k * d)) = fl (k * d) := fl_of (fl_binary _)
  set Q := fl (k * d) / fl d with hQdef
  have herr2 : Q / 2 ^ 51 ≤ 1 / 8 := by
    rw [div_le_div_iff₀ (by norm_num) (by norm_num)]
    linarith
  have herr3 : (1 : ℚ) / 2 ^ 100 ≤ 1 / 8 := by norm_num
  obtain ⟨e1, e2⟩ := abs_le.mp herr
  have hq0 : 0 ≤ fl (fl (fl (k * d)) / fl d) := fl_nonneg (div_nonneg (fl_nonneg hV) hD0.le)
  rw [abs_of_nonneg hq0] at hlen
  have := floor_range (n := k) (q := fl (fl (fl (k * d)) / fl d)) (by linarith) (by linarith) hk
  omega

example : ∃ e, Env.makeR fl { dt := some (.given (fl (1 / 10 ^ 14))), t1 := some (.given (fl ((23 : ℕ) * (1 / 10 ^ 14)))) } = .ok e ∧
    22 ≤ e.num_t ∧ e.num_t ≤ 23 := by
  have key : okAnd (Env.makeR fl { dt := some (.given (fl (1 / 10 ^ 14))), t1 := some (.given (fl ((23 : ℕ) * (1 / 10 ^ 14)))) })
      (fun _ => true) = true := by decide +kernel
  obtain ⟨e, he, -⟩ := okAnd_iff.mp key
  refine ⟨e, he, C106_multiple_partial 23 (1 / 10 ^ 14) e (by norm_num) (by norm_num) ?_ he⟩
  have : (2 : ℚ) ^ (-900 : ℤ) ≤ 2 ^ (-50 : ℤ) := two_le (by norm_num)
  refine this.trans ?_
  norm_num

example : ∃ e, Env.makeR fl { dt := some (.given 3), t1 := some (.given 100) } = .ok e ∧ e.num_t = 33 := by
  have key : okAnd (Env.makeR fl { dt := some (.given 3), t1 := some (.given 100) }) (fun _ => true) = true := by decide +kernel
  obtain ⟨e, he, -⟩ := okAnd_iff.mp key
  have hd0 : (2 : ℚ) ^ (-900 : ℤ) ≤ 3 := by
    have : (2 : ℚ) ^ (-900 : ℤ) ≤ 2 ^ (0 : ℤ) := two_le (by norm_num)
    norm_num at this ⊢
    linarith
  have h := (C106_partial _ e 3 0 100 he (by rintro ⟨q, hq⟩; cases hq)
    (by rintro ⟨q, hq⟩; cases hq) (.inl ⟨_, rfl⟩) (.inr ⟨(by rintro ⟨q, hq⟩; cases hq), .inr rfl⟩) (.inl rfl) (.inr rfl) rfl
    hd0 (by norm_num)).2.2.1 ?_
  · refine ⟨e, he, h.trans ?_⟩
    rw [show ⌊((100 : ℚ) - 0) / 3⌋₊ = 33 from by rw [Nat.floor_eq_iff (by norm_num)]; norm_num]
    rfl
  · intro n hn
    rcases Nat.lt_or_ge n 34 with h1 | h1
    · have : (n : ℚ) ≤ 33 := by exact_mod_cast (by omega : n ≤ 33)
      rw [abs_of_nonneg (by linarith)]
      norm_num
      linarith
    · have : (34 : ℚ) ≤ n := by exact_mod_cast h1
      rw [abs_of_nonpos (by linarith)]
      norm_num
      linarith

/-! ## C107 -/

/-- C107 full statement: the time step and the length of a bit are those asked for. -/
def C107_statement : Prop :=
  (∀ (n : ℕ) (d : ℚ) (e : Env), 2 ≤ n → Binary64 d → 0 < d →
    Env.makeR fl { dt := some (.given d), num_t := some (.given n) } = .ok e → e.dt = some d) ∧
  ∀ (b : ℚ) (e : Env), Binary64 b → 0 < b →
    Env.makeR fl { bitlength := some (.given b) } = .ok e → e.bitlength = some b

/-- C107 is violated: `Environment(dt=1e-14, num_t=23).dt` is not `1e-14`. -/
theorem C107_violation : ¬ C107_statement := by
  intro h
  have key : okAnd (Env.makeR fl { dt := some (.given (fl (1 / 10 ^ 14))), num_t := some (.given 23) })
      (fun e => e.dt != some (fl (1 / 10 ^ 14))) = true := by decide +kernel
  obtain ⟨e, he, hne⟩ := okAnd_iff.mp key
  have := h.1 23 (fl (1 / 10 ^ 14)) e (by norm_num) (fl_binary _) (by decide +kernel) he
  simp [this] at hne

/-- C107 is violated: `Environment(bitlength=27e-12).bitlength` is not `27e-12`. -/
theorem C107_bitlength_violation : ¬ C107_statement := by
  intro h
  have key : okAnd (Env.makeR fl { bitlength := some (.given (fl (27 / 10 ^ 12))) })
      (fun e => e.bitlength != some (fl (27 / 10 ^ 12))) = true := by decide +kernel
  obtain ⟨e, he, hne⟩ := okAnd_iff.mp key
  have := h.2 (fl (27 / 10 ^ 12)) e (fl_binary _) (by decide +kernel) he
  simp [this] at hne

theorem number_grid {a : Args} {e : Env} {d x : ℚ} {n : ℕ} (h : Env.initR fl a = .ok e) (hn : a.num_t = .given (n : ℤ))
    (hd : FloatStep a d) (hx : HasValue a.t0 x) (hfd : a.freqdomain = false) :
    e.num_t = e.t.length ∧ e.t0 = e.t.headD 0 ∧ e.t ≠ [] ∧ e.dt = firstStepR fl e.t ∧
      linspaceOpenR fl x (fl (x + fl (fl ((n : ℤ) : ℚ) * d))) n = .ok e.t := by
  obtain ⟨c, br0, t0l, t, wl, f, sr, bl, hc, hchk, hbr, ht, htt, htne, hwl, -, -, -, -, he⟩ := initR_ok h
  rw [hfd] at htt
  simp only [Bool.false_eq_true, if_false] at htt
  subst htt
  have hsup : Supplied a .num_t := ⟨_, hn⟩
  have hNC := (checkArgs_ok.mp hchk).1
  have ht' : ¬ Supplied a .t := by
    intro hs
    rcases (by decide : (ArgName.num_t, ArgName.t) ∈ exclusivePairs ∨ (ArgName.t, ArgName.num_t) ∈ exclusivePairs) with hk | hk
    · exact hNC ⟨_, hk, hsup, hs⟩
    · exact hNC ⟨_, hk, hs, hsup⟩
  have hnd : a.num_t.isDefault = false := by rw [isDefault_false_iff]; exact hsup
  rw [timeArrR_grid ht' (by tauto), floatStep_ok.mpr hd] at ht
  rw [hnd] at ht
  simp only [ok_bind, Bool.not_false, if_true, hn, show (Arg.given (n : ℤ)).val = .ok (n : ℤ) from rfl,
    val_eq_ok.mpr hx, pure_eq_ok] at ht
  rw [bind_eq_ok] at ht
  obtain ⟨l, hl, hl2⟩ := ht
  cases hl2
  subst he
  exact ⟨rfl, rfl, htne, rfl, hl⟩

/-- C107 (what holds): the number of points is exact and so is the first one; the others are where they should be, and the time
step is what it should be, up to the precision of numbers as large as the largest time. -/
theorem C107_partial (a : Args) (e : Env) (n : ℕ) (d x : ℚ) (h : Env.initR fl a = .ok e) (hn : a.num_t = .given (n : ℤ))
    (hd : FloatStep a d) (hx : HasValue a.t0 x) (hfd : a.freqdomain = false) (hn1 : 1 ≤ n) (hn2 : n ≤ 2 ^ 50)
    (hd0 : 2 ^ (-900 : ℤ) ≤ d) (hxb : Binary64 x) :
    e.num_t = n ∧ e.t0 = x ∧ (∀ (i : ℕ) (w : ℚ), e.t[i]? = some w → |w - (x + i * d)| ≤ (|x| + n * d) / 2 ^ 48) ∧
      (2 ≤ n → ∃ s, e.dt = some s ∧ |s - d| ≤ (|x| + n * d) / 2 ^ 48) := by
  obtain ⟨g1, g2, g3, g4, hl⟩ := number_grid h hn hd hx hfd
  have hP0 : 0 ≤ |x| + n * d := by
    have := two_pos (-900)
    have : 0 ≤ d := by linarith
    positivity
  have hlen : e.t.length = n := by simpa using (linspaceR_ok hl).2.1
  have first : ∀ w, e.t[0]? = some w → w = x := by
    intro w hw
    have := ((linspaceR_ok hl).2.2 0 w hw).2
    simp only [Nat.cast_zero, fl_zero, zero_div, zero_mul, ite_self, zero_add, fl_of hxb] at this
    exact this
  have e8 : (|x| + n * d) / 2 ^ 48 = 8 * ((|x| + n * d) / 2 ^ 51) := by ring
  refine ⟨g1.trans hlen, ?_, fun i w hw => ?_, fun h2 => ?_⟩
  · rw [g2]
    match hm : e.t, g3 with
    | u :: _, _ => exact first u (by rw [hm]; rfl)
  · have := grid_err hn1 hn2 hd0 hl hw
    have : 0 ≤ (|x| + n * d) / 2 ^ 51 := by positivity
    linarith
  · match hm : e.t, hlen with
    | [], hl => simp at hl; omega
    | [_], hl => simp at hl; omega
    | u :: v :: r, _ =>
      have hu := first u (by rw [hm]; rfl)
      have hv := grid_err (i := 1) (w := v) hn1 hn2 hd0 hl (by rw [hm]; rfl)
      refine ⟨fl (v - u), by rw [g4, hm]; rfl, ?_⟩
      rw [hu]
      rw [Nat.cast_one, one_mul] at hv
      have hnq : (1 : ℚ) ≤ n := by exact_mod_cast hn1
      have p9 := two_pos (-900)
      have hnd : d ≤ n * d := by nlinarith
      have hx0 := abs_nonneg x
      have hv' : |v - x - d| ≤ 7 * ((|x| + n * d) / 2 ^ 51) := by rw [sub_sub]; exact hv
      have m := abs_near hv'
      rw [abs_of_nonneg (by linarith : 0 ≤ d)] at m
      have hE : (|x| + n * d) / 2 ^ 51 ≤ (|x| + n * d) / 8 := by
        rw [div_le_div_iff₀ (by norm_num) (by norm_num)]
        linarith
      have := fl_err_le (z := v - x) (P := |x| + n * d) (by linarith) (by linarith)
      have := abs_tri (fl (v - x)) (v - x) d
      linarith

/-- C107 (what holds), starting at zero: the time step is precise up to the last digits, and exact if the number of points is a
power of two. -/
theorem C107_zero_partial (a : Args) (e : Env) (n : ℕ) (d : ℚ) (h : Env.initR fl a = .ok e) (hn : a.num_t = .given (n : ℤ))
    (hd : FloatStep a d) (hx : HasValue a.t0 0) (hfd : a.freqdomain = false) (hn1 : 2 ≤ n) (hn2 : n ≤ 2 ^ 50)
    (hd0 : 2 ^ (-900 : ℤ) ≤ d) :
    ∃ s, e.dt = some s ∧ |s - d| ≤ d / 2 ^ 51 ∧ (Binary64 d → (∃ k, n = 2 ^ k) → s = d) := by
  obtain ⟨-, -, -, g4, hl⟩ := number_grid h hn hd hx hfd
  obtain ⟨h1, h2, h3⟩ := grid_zero hn1 hn2 hd0 hl
  exact ⟨_, g4.trans h1, h2, h3⟩

example : ∃ e, Env.makeR fl { dt := some (.given 3), num_t := some (.given 64), t0 := some (.given (1 / 2 ^ 41)) } = .ok e ∧
    e.num_t = 64 ∧ e.t0 = 1 / 2 ^ 41 := by
  have key : okAnd (Env.makeR fl { dt := some (.given 3), num_t := some (.given 64), t0 := some (.given (1 / 2 ^ 41)) })
      (fun _ => true) = true := by decide +kernel
  obtain ⟨e, he, -⟩ := okAnd_iff.mp key
  have hd0 : (2 : ℚ) ^ (-900 : ℤ) ≤ 3 := (two_le (by norm_num : (-900 : ℤ) ≤ 0)).trans (by norm_num)
  have h := C107_partial _ e 64 3 (1 / 2 ^ 41) he rfl (.inr ⟨(by rintro ⟨q, hq⟩; cases hq), .inr rfl⟩) (.inr rfl) rfl (by norm_num) (by norm_num) hd0
    ⟨1, -41, by norm_num, by norm_num, by norm_num⟩
  exact ⟨e, he, h.1, h.2.1⟩

example : ∃ e, Env.makeR fl { dt := some (.given (fl (1 / 10 ^ 14))), num_t := some (.given 64) } = .ok e ∧
    e.dt = some (fl (1 / 10 ^ 14)) := by
  have key : okAnd (Env.makeR fl { dt := some (.given (fl (1 / 10 ^ 14))), num_t := some (.given 64) }) (fun _ => true) = true := by
    decide +kernel
  obtain ⟨e, he, -⟩ := okAnd_iff.mp key
  have h1 : (1 : ℚ) / 2 ^ 50 ≤ fl (1 / 10 ^ 14) := by decide +kernel
  have h2 : (2 : ℚ) ^ (-900 : ℤ) ≤ 1 / 2 ^ 50 := by
    rw [show (1 : ℚ) / 2 ^ 50 = 2 ^ (-50 : ℤ) from by norm_num]
    exact two_le (by norm_num)
  obtain ⟨s, hs, -, hx⟩ := C107_zero_partial _ e 64 (fl (1 / 10 ^ 14)) he rfl (.inr ⟨(by rintro ⟨q, hq⟩; cases hq), .inr rfl⟩) (.inl rfl)
    rfl (by norm_num) (by norm_num) (h2.trans h1)
  exact ⟨e, he, by rw [hs, hx (fl_binary _) ⟨6, by norm_num⟩]⟩

/-- C107 (what holds), bits: a given bit rate is kept, a given length of a bit is precise up to the last digits. -/
theorem C107_bits_partial (a : Args) (e : Env) (h : Env.initR fl a = .ok e) (hfd : a.freqdomain = false) :
    (∀ r, a.bitrate = .given r → e.bitrate = some r ∧ e.bitlength = some (fl (1 / r))) ∧
      ∀ b, a.bitlength = .given b → 2 ^ (-900 : ℤ) ≤ b → b ≤ 2 ^ (900 : ℤ) →
        ∃ l r, e.bitlength = some l ∧ e.bitrate = some r ∧ |l - b| ≤ b / 2 ^ 51 ∧ |r - 1 / b| ≤ 1 / b / 2 ^ 53 := by
  obtain ⟨c, br0, t0l, t, wl, f, sr, bl, hc, hchk, hbr, ht, htt, htne, hwl, -, -, hbl, -, he⟩ := initR_ok h
  rw [hfd] at hbl he
  simp only [Bool.false_eq_true, if_false] at hbl he
  have hNC := (checkArgs_ok.mp hchk).1
  constructor
  · intro r hr
    have hdef : a.bitlength.isDefault = true := by
      rw [isDefault_iff]
      intro hs
      have hsup : Supplied a .bitrate := ⟨_, hr⟩
      rcases (by decide : (ArgName.bitrate, ArgName.bitlength) ∈ exclusivePairs ∨
        (ArgName.bitlength, ArgName.bitrate) ∈ exclusivePairs) with hk | hk
      · exact hNC ⟨_, hk, hsup, hs⟩
      · exact hNC ⟨_, hk, hs, hsup⟩
    unfold bitrateOfR at hbr
    rw [hdef, hr] at hbr
    cases hbr
    simp only [recipOptR, bind_eq_ok, pyDivR_ok, pure_eq_ok, Except.ok.injEq] at hbl
    obtain ⟨z, ⟨-, rfl⟩, rfl⟩ := hbl
    subst he
    exact ⟨rfl, rfl⟩
  · intro b hb h1 h2
    have p9 := two_pos (-900)
    have hb0 : 0 < b := by linarith
    unfold bitrateOfR at hbr
    simp only [hb, show (Arg.given b).isDefault = false from rfl, show (Arg.given b).val = .ok b from rfl, Bool.not_false, if_true,
      ok_bind, bind_eq_ok, pyDivR_ok, pure_eq_ok, Except.ok.injEq] at hbr
    obtain ⟨r, ⟨-, rfl⟩, rfl⟩ := hbr
    simp only [recipOptR, bind_eq_ok, pyDivR_ok, pure_eq_ok, Except.ok.injEq] at hbl
    obtain ⟨z, ⟨hr0, rfl⟩, rfl⟩ := hbl
    subst he
    refine ⟨_, _, rfl, rfl, ?_⟩
    have hinv : 0 < 1 / b := by positivity
    have big : (2 : ℚ) ^ (-900 : ℤ) ≤ 1 / b := by
      rw [le_div_iff₀ hb0]
      calc (2 : ℚ) ^ (-900 : ℤ) * b ≤ 2 ^ (-900 : ℤ) * 2 ^ (900 : ℤ) := mul_le_mul_of_nonneg_left h2 p9.le
        _ = 1 := by rw [← two_add]; rfl
    have small : (2 : ℚ) ^ (-900 : ℤ) / 2 ^ 60 ≤ 2 ^ (-900 : ℤ) := div_le_self p9.le (by norm_num)
    have r1 := fl_rel (x := 1 / b) (normal_of (by rw [abs_of_pos hinv]; linarith))
    rw [abs_of_pos hinv] at r1
    refine ⟨?_, r1⟩
    obtain ⟨u, hu⟩ : ∃ u, fl (1 / b) = u * (1 / b) := ⟨fl (1 / b) * b, by field_simp⟩
    have hu1 : |u - 1| ≤ 1 / 2 ^ 53 := by
      rw [hu, show u * (1 / b) - 1 / b = (u - 1) * (1 / b) from by ring, abs_mul, abs_of_pos hinv,
        show 1 / b / 2 ^ 53 = 1 / 2 ^ 53 * (1 / b) from by ring] at r1
      exact le_of_mul_le_mul_right r1 hinv
    obtain ⟨v1, v2⟩ := abs_le.mp hu1
    have hu0 : 1 / 2 ≤ u := by
      have : (1 : ℚ) / 2 ^ 53 ≤ 1 / 2 := by norm_num
      linarith
    have hur : 1 / fl (1 / b) = b / u := by
      rw [hu]
      field_simp
    rw [hur]
    have hv : |b / u - b| ≤ b / 2 ^ 52 := by
      rw [show b / u - b = b * ((1 - u) / u) from by field_simp, abs_mul, abs_of_pos hb0, abs_div, abs_of_pos (by linarith : 0 < u),
        div_eq_mul_one_div b (2 ^ 52)]
      refine mul_le_mul_of_nonneg_left ?_ hb0.le
      rw [div_le_iff₀ (by linarith), abs_sub_comm]
      have : (1 : ℚ) / 2 ^ 52 * (1 / 2) = 1 / 2 ^ 53 := by norm_num
      nlinarith
    have m := abs_near hv
    rw [abs_of_pos hb0] at m
    have hlow : b / 2 ≤ b / u := by
      have := (abs_le.mp hv).1
      have : b / 2 ^ 52 ≤ b / 2 := by
        rw [div_le_div_iff₀ (by norm_num) (by norm_num)]
        linarith
      linarith
    have r2 := fl_rel (x := b / u) (normal_of (by
      rw [abs_of_pos (by linarith), div_le_iff₀ (by norm_num)]
      nlinarith))
    have t1 := abs_tri (fl (b / u)) (b / u) b
    have t2 : |b / u| / 2 ^ 53 ≤ (b + b / 2 ^ 52) / 2 ^ 53 := by
      rw [div_le_div_iff₀ (by norm_num) (by norm_num)]
      linarith
    have t3 : (b + b / 2 ^ 52) / 2 ^ 53 + b / 2 ^ 52 ≤ b / 2 ^ 51 := by
      rw [show (b + b / 2 ^ 52) / 2 ^ 53 + b / 2 ^ 52 = b * ((1 + 1 / 2 ^ 52) / 2 ^ 53 + 1 / 2 ^ 52) from by ring,
        show b / 2 ^ 51 = b * (1 / 2 ^ 51) from by ring]
      exact mul_le_mul_of_nonneg_left (by norm_num) hb0.le
    linarith

example : ∃ e, Env.makeR fl { bitlength := some (.given 3) } = .ok e ∧ ∃ l, e.bitlength = some l ∧ |l - 3| ≤ 3 / 2 ^ 51 := by
  have key : okAnd (Env.makeR fl { bitlength := some (.given 3) }) (fun _ => true) = true := by decide +kernel
  obtain ⟨e, he, -⟩ := okAnd_iff.mp key
  have hd0 : (2 : ℚ) ^ (-900 : ℤ) ≤ 3 := (two_le (by norm_num : (-900 : ℤ) ≤ 0)).trans (by norm_num)
  have hd1 : (3 : ℚ) ≤ 2 ^ (900 : ℤ) := le_trans (by norm_num : (3 : ℚ) ≤ 2 ^ (2 : ℤ)) (two_le (by norm_num))
  obtain ⟨l, r, h1, -, h2, -⟩ := (C107_bits_partial _ e he rfl).2 3 rfl hd0 hd1
  exact ⟨e, he, l, h1, h2⟩

end PT
