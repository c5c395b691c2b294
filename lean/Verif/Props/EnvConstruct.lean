import Verif.Proof.Grid

/-!
# Environment construction: C01 – C06, C11, C60

Every theorem is about `Env.init`, the model of `Environment.__init__`.
-/

namespace PT
open Spec

/-! ## C01 -/

/-- C01: supplying two mutually exclusive arguments raises `ValueError`. -/
theorem C01_conflict_rejected (a : Args) (c : ℚ) (hc : HasValue a.c c) (h : Conflict a) :
    Env.init a = .error .valueError := by
  have h1 : checkArgs a = .error .valueError := by
    rw [checkArgs_eq, if_pos ((exclGuard_iff a).mpr h)]
  unfold Env.init
  simp [val_eq_ok.mpr hc, h1]

example : HasValue ({ defaultArgs with t1 := .given 1, num_t := .given 3 } : Args).c 299792458 ∧
    Conflict { defaultArgs with t1 := .given 1, num_t := .given 3 } :=
  ⟨.inl rfl, (.t1, .num_t), by decide, ⟨_, rfl⟩, ⟨_, rfl⟩⟩

/-- C01: a negative time step or a reversed interval raises `ValueError`
(unless `dt` itself is `None`, which raises `TypeError`). -/
theorem C01_bad_times_rejected (a : Args) (c : ℚ) (hc : HasValue a.c c) (hdt : a.dt ≠ .none)
    (h : BadTimes a) : Env.init a = .error .valueError := by
  have h1 : checkArgs a = .error .valueError := by
    rw [checkArgs_eq]
    split
    · rfl
    · unfold signChecks
      rcases h with ⟨d, hd, hd0⟩ | ⟨x, y, hx, hy, hxy⟩
      · simp [val_eq_ok.mpr hd, hd0]
      · have : ∃ d, a.dt.val = .ok d := by cases h : a.dt <;> simp_all [Arg.val]
        obtain ⟨d, hd⟩ := this
        simp [hd, val_eq_ok.mpr hx, val_eq_ok.mpr hy, hxy]
  unfold Env.init
  simp [val_eq_ok.mpr hc, h1]

example : BadTimes { defaultArgs with dt := .given (-1) } :=
  .inl ⟨-1, .inr rfl, by norm_num⟩

/-- C01 (converse): every `ValueError` of the constructor is a conflict, a negative step or
reversed interval, an array of too many dimensions, or a negative number of time steps. -/
theorem C01_only_these (a : Args) (h : Env.init a = .error .valueError) :
    Conflict a ∨ BadTimes a ∨ HasValue a.t .high ∨ HasValue a.wl .high ∨ HasValue a.f .high ∨
      ∃ n, a.num_t = .given n ∧ n < 0 := by
  unfold Env.init at h
  simp only [bind_eq_error, pure_eq_ok] at h
  have harr : ∀ x : Arg ArrArg, arrOf x = .error .valueError → HasValue x .high := by
    intro x hx
    unfold arrOf at hx
    split at hx <;> simp_all [HasValue]
  have hval : ∀ {α : Type} (x : Arg α), x.val ≠ .error .valueError := by
    intro α x hx; have := val_error hx; cases this
  have hdiv : ∀ x y, pyDiv x y ≠ .error .valueError := by
    intro x y hx; have := (pyDiv_ne_error hx).2; cases this
  have hnp : ∀ x y, npDivArr x y ≠ .error .valueError := by
    intro x y hx; have := (npDivArr_error hx).2; cases this
  have har : ∀ x y z, arange x y z ≠ .error .valueError := by
    intro x y z hx; have := (arange_error hx).2; cases this
  have hrec : ∀ x, recipOpt x ≠ .error .valueError := by
    intro x hx; cases x <;> simp [recipOpt, bind_eq_error, hdiv] at hx
  have hhead : ∀ x, headOf x ≠ .error .valueError := by
    intro x hx; unfold headOf at hx; split at hx <;> simp at hx
  rcases h with h | ⟨c, hc, h⟩
  · exact absurd h (hval _)
  rcases h with h | ⟨_, hchk, h⟩
  · rcases checkArgs_valueError h with h | h
    · exact .inl h
    · exact .inr (.inl h)
  rcases h with h | ⟨br0, hbr, h⟩
  · exfalso
    unfold bitrateOf at h
    split at h
    · simp [bind_eq_error, hval, hdiv] at h
    · split at h <;> simp at h
  rcases h with h | ⟨t, ht, h⟩
  · unfold timeArr at h
    split at h
    · exact .inr (.inr (.inl (harr _ h)))
    · rw [bind_eq_error] at h
      rcases h with h | ⟨d, -, h⟩
      · exfalso; unfold stepArg at h; split at h <;> simp [bind_eq_error, hval, hdiv] at h
      · split at h
        · simp only [bind_eq_error, hval, false_or, pure_eq_ok, reduceCtorEq, and_false,
            exists_false, or_false] at h
          obtain ⟨n, hn, x, hx, h⟩ := h
          refine .inr (.inr (.inr (.inr (.inr ?_))))
          rename_i hd
          simp only [Bool.not_eq_true', isDefault_false_iff] at hd
          obtain ⟨v, hv⟩ := hd
          rw [hv] at hn
          cases hn
          refine ⟨_, hv, ?_⟩
          unfold linspaceOpen at h
          split at h
          · assumption
          · simp at h
        · exfalso; simp [bind_eq_error, hval, har] at h
  rcases h with h | ⟨wl, hwl, h⟩
  · unfold wlArr at h
    split at h
    · rw [bind_eq_error] at h
      rcases h with h | ⟨w, hw, h⟩
      · exfalso
        unfold wlArgOf at h
        split at h
        · unfold divArg at h; split at h <;> simp [bind_eq_error, hdiv, hnp] at h
        · simp at h
      · have := harr _ h
        unfold wlArgOf at hw
        split at hw
        · refine .inr (.inr (.inr (.inr (.inl ?_))))
          unfold divArg at hw
          split at hw <;> simp only [bind_eq_ok, pure_eq_ok, Except.ok.injEq, reduceCtorEq] at hw
          · obtain ⟨z, -, rfl⟩ := hw; simp [HasValue] at this
          · obtain ⟨z, -, rfl⟩ := hw; simp [HasValue] at this
          · obtain ⟨z, -, rfl⟩ := hw; simp [HasValue] at this
          · obtain ⟨z, -, rfl⟩ := hw; simp [HasValue] at this
          · exact .inl (by assumption)
          · exact .inr (by assumption)
        · cases hw; exact .inr (.inr (.inr (.inl this)))
    · exfalso
      have hft : ∀ c a, freqTop c a ≠ .error .valueError := by
        intro c a hx; unfold freqTop at hx; split at hx <;> simp [bind_eq_error, hval, hdiv] at hx
      have hfb : ∀ c a, freqBottom c a ≠ .error .valueError := by
        intro c a hx; unfold freqBottom at hx
        split at hx <;> simp [bind_eq_error, hval, hdiv] at hx
      have hite : ∀ (b : Bool) (x y : Except PyErr ℚ), x ≠ .error .valueError →
          y ≠ .error .valueError → (if b = true then x else y) ≠ .error .valueError := by
        intro b x y hx hy; split <;> assumption
      split at h
      · simp [bind_eq_error, hval, hdiv, hft, hfb, har, hnp] at h
      · split at h
        · simp [bind_eq_error, hval, hft, hfb, har, hnp] at h
        · unfold wlBoundOf wlStepOf at h
          have h1 : ∀ (x : Arg ℚ) (z : ℚ), (do pyDiv z (← x.val)) ≠ .error .valueError := by
            intro x z; simp [bind_eq_error, hval, hdiv]
          have h2 : ∀ (x : Arg ℤ) (z : ℚ), (do pyDiv z (← x.val)) ≠ .error .valueError := by
            intro x z; simp [bind_eq_error, hval, hdiv]
          rw [bind_eq_error] at h
          rcases h with h | ⟨w0, -, h⟩
          · exact hite _ _ _ (h1 _ _) (hval _) h
          rw [bind_eq_error] at h
          rcases h with h | ⟨w1, -, h⟩
          · exact hite _ _ _ (h1 _ _) (hval _) h
          rw [bind_eq_error] at h
          rcases h with h | ⟨d, -, h⟩
          · exact hite _ _ _ (h2 _ _) (hval _) h
          simp [bind_eq_error, har] at h
  exfalso
  simp [hhead, hrec, hnp] at h

/-! ## C02 -/

/-- C02: `num_t` time steps of the requested size, starting at the requested time. -/
theorem C02_num_t_grid (a : Args) (e : Env) (n : ℤ) (d x : ℚ) (h : Env.init a = .ok e)
    (hn : a.num_t = .given n) (hd : StepOf a d) (hx : HasValue a.t0 x)
    (hfd : a.freqdomain = false) :
    (e.num_t : ℤ) = n ∧ 1 ≤ n ∧ IsGrid e.t x d e.num_t := by
  obtain ⟨c, br0, t0l, wl0l, t, wl, f, sr, bl, hc, hchk, hbr, ht, htt, htne, hwl, -, -, -, -, -, he⟩ :=
    init_ok h
  rw [hfd] at htt
  simp only [Bool.false_eq_true, if_false] at htt
  subst htt
  have hns : ¬ Supplied a .t := by
    intro hs
    exact (checkArgs_ok.mp hchk).1 ⟨(.num_t, .t), by decide, ⟨n, hn⟩, hs⟩
  rw [timeArr_grid hns (.inr (.inr (.inl ⟨n, hn⟩))), step_ok.mpr hd] at ht
  simp only [ok_bind, hn, Arg.isDefault, Bool.not_false, if_true,
    val_eq_ok.mpr hx, pure_eq_ok, show (Arg.given n).val = .ok n from rfl] at ht
  rw [bind_eq_ok] at ht
  obtain ⟨l, hl, hl2⟩ := ht
  cases hl2
  obtain ⟨hn0, hg⟩ := linspaceOpen_ok hl
  have hlen : t.length = n.toNat := hg.1
  have hpos : 0 < t.length := List.length_pos_iff.mpr htne
  have hn1 : 1 ≤ n := by omega
  subst he
  refine ⟨by simp only; omega, hn1, ?_⟩
  simp only
  have : (x + (n : ℚ) * d - x) / (n : ℚ) = d := by
    have : (n : ℚ) ≠ 0 := by exact_mod_cast (by omega : n ≠ 0)
    field_simp; ring
  rw [this] at hg
  rw [hlen]; exact hg

/-- C02: such environments are really accepted: any positive step, any number of steps, and a
start time not later than 1e-12 s (see `C60`). -/
theorem C02_accepted (d x : ℚ) (n : ℕ) (hd : 0 < d) (hn : 1 ≤ n) (hx : x ≤ 1 / 10 ^ 12) :
    ∃ e, Env.make { dt := some (.given d), num_t := some (.given n), t0 := some (.given x) } = .ok e ∧
      e.num_t = n ∧ IsGrid e.t x d n := by
  have hg : ∃ l, linspaceOpen x (x + ((n : ℤ) : ℚ) * d) n = .ok l ∧ IsGrid l x d n := by
    refine ⟨_, by simp [linspaceOpen]; rfl, ?_⟩
    have h1 : (x + (n : ℚ) * d - x) / (n : ℚ) = d := by
      have : (n : ℚ) ≠ 0 := by positivity
      field_simp; ring
    rw [add_sub_cancel_left] at h1
    rw [h1]
    exact isGrid_map_range _ _ _
  obtain ⟨l, hl, hg⟩ := hg
  set o : Overrides :=
    { dt := some (.given d), num_t := some (.given n), t0 := some (.given x) } with ho
  have hchk : checkArgs (defaultArgs.update o) = .ok () := by
    rw [checkArgs_ok]
    refine ⟨?_, d, x, 1 / 10 ^ 12, .inr rfl, .inr rfl, .inl rfl, hd.le, hx⟩
    rw [← exclGuard_iff]
    simp [exclGuard, countGiven, Args.update, defaultArgs, ho, Arg.isDefault]
  have hlne : l ≠ [] := by
    intro h; have := hg.1; simp [h] at this; omega
  have hsr : ∃ sr, recipOpt (firstStep l) = .ok sr := by
    by_cases h2 : 2 ≤ n
    · rw [IsGridL.firstStep_eq hg h2]
      exact ⟨some (1 / d), by simp [recipOpt, pyDiv_of_ne hd.ne']⟩
    · rw [IsGridL.firstStep_none (by rw [hg.1]; omega)]
      exact ⟨none, rfl⟩
  obtain ⟨sr, hsr⟩ := hsr
  refine ⟨_, init_mk (c := 299792458) (br0 := none) (t0l := l) (wl := [155 / 10 ^ 8])
    (f := [299792458 / (155 / 10 ^ 8)]) (sr := sr) (bl := none)
    (.inl rfl) hchk (by rfl) ?_ hlne (by rfl) (by simp) ?_ (by rfl) ?_, ?_, ?_⟩
  · rw [timeArr_grid (by rintro ⟨v, hv⟩; simp [Args.update, defaultArgs, ho] at hv) (.inl ⟨d, rfl⟩)]
    simp [Args.update, defaultArgs, ho, Arg.isDefault, stepArg] at hl ⊢
    rw [hl]; simp
  · simpa [Args.update, defaultArgs, ho] using hsr
  · norm_num [npDivArr]
  · simpa [Args.update, defaultArgs, ho, mkEnv] using hg.1
  · simpa [Args.update, defaultArgs, ho, mkEnv] using hg

example : (0 : ℚ) < 1 / 10 ^ 14 ∧ (1 : ℕ) ≤ 100 ∧ (0 : ℚ) ≤ 1 / 10 ^ 12 := by norm_num

/-! ## C60: the start time may be chosen freely (violated) -/

/-- C60 full statement: with `num_t` and `dt` supplied, every start time is accepted. -/
def C60_statement : Prop :=
  ∀ (d x : ℚ) (n : ℕ), 0 < d → 1 ≤ n →
    ∃ e, Env.make { dt := some (.given d), num_t := some (.given n), t0 := some (.given x) } = .ok e

/-- C60 is violated: the default `t1` (1e-12 s) is compared with `t0` even though `num_t`
determines the end of the simulation. -/
theorem C60_violation : ¬ C60_statement := by
  intro h
  obtain ⟨e, he⟩ := h 1 1 1 (by norm_num) (by norm_num)
  have : Env.make { dt := some (.given 1), num_t := some (.given 1), t0 := some (.given 1) } =
      .error .valueError := by decide +kernel
  rw [show ((1 : ℕ) : ℤ) = 1 from rfl, this] at he
  cases he

/-- C60, what holds: start times up to 1e-12 s are accepted, exactly. Missing: later ones. -/
theorem C60_partial (d x : ℚ) (n : ℕ) (hd : 0 < d) (hn : 1 ≤ n) :
    (∃ e, Env.make { dt := some (.given d), num_t := some (.given n), t0 := some (.given x) } = .ok e)
      ↔ x ≤ 1 / 10 ^ 12 := by
  constructor
  · rintro ⟨e, he⟩
    by_contra hx
    push Not at hx
    have := C01_bad_times_rejected
      (defaultArgs.update { dt := some (.given d), num_t := some (.given n), t0 := some (.given x) })
      299792458 (.inl rfl) (by simp [Args.update])
      (.inr ⟨x, 1 / 10 ^ 12, .inr rfl, .inl rfl, hx⟩)
    rw [Env.make, this] at he
    cases he
  · intro hx
    obtain ⟨e, he, -⟩ := C02_accepted d x n hd hn hx
    exact ⟨e, he⟩

/-! ## C03 -/

/-- C03: the grid from `t0`, `t1` and the step has `⌊(t1-t0)/dt⌋` samples (at least one) and stays
before `t1`.  (`|d|` because a negative sample rate passes the `dt < 0` check.) -/
theorem C03_interval_grid (a : Args) (e : Env) (d x y : ℚ) (h : Env.init a = .ok e)
    (hn : ¬ Supplied a .num_t) (ht' : ¬ Supplied a .t)
    (hs : Supplied a .dt ∨ Supplied a .samplerate ∨ Supplied a .t0 ∨ Supplied a .t1)
    (hd : StepOf a d) (hx : HasValue a.t0 x) (hy : HasValue a.t1 y)
    (hfd : a.freqdomain = false) :
    d ≠ 0 ∧ IsGrid e.t x |d| e.num_t ∧ e.num_t = max 1 ⌊(y - x) / |d|⌋₊ ∧
      ∀ (i : ℕ) (v : ℚ), 1 ≤ i → e.t[i]? = some v → v < y := by
  obtain ⟨c, br0, t0l, wl0l, t, wl, f, sr, bl, hc, hchk, hbr, ht, htt, htne, hwl, -, -, -, -, -, he⟩ :=
    init_ok h
  rw [hfd] at htt
  simp only [Bool.false_eq_true, if_false] at htt
  subst htt
  obtain ⟨-, d', x', y', -, hx', hy', -, hxy⟩ := checkArgs_ok.mp hchk
  have hxx : x' = x := by rcases hx with hx | hx <;> rcases hx' with hx' | hx' <;> simp_all
  have hyy : y' = y := by rcases hy with hy | hy <;> rcases hy' with hy' | hy' <;> simp_all
  subst hxx hyy
  have hnd : a.num_t.isDefault = true := by rw [isDefault_iff]; exact hn
  rw [timeArr_grid ht' (by tauto), step_ok.mpr hd] at ht
  simp only [ok_bind, hnd, Bool.not_true, Bool.false_eq_true, if_false,
    val_eq_ok.mpr hx, val_eq_ok.mpr hy, pure_eq_ok] at ht
  rw [bind_eq_ok] at ht
  obtain ⟨l, hl, hl2⟩ := ht
  cases hl2
  obtain ⟨hd0, hg⟩ := arange_ok hl
  have hstep : (if 0 ≤ (y' - x') / d then d else -d) = |d| ∨ y' = x' := by
    rcases eq_or_lt_of_le hxy with h1 | h1
    · exact .inr h1.symm
    · left
      rcases lt_or_gt_of_ne hd0 with h2 | h2
      · rw [if_neg (not_le.mpr (div_neg_of_pos_of_neg (by linarith) h2)), abs_of_neg h2]
      · rw [if_pos (div_nonneg (by linarith) h2.le), abs_of_pos h2]
  have habs : |(y' - x') / d| = (y' - x') / |d| := by
    rw [abs_div, abs_of_nonneg (by linarith : 0 ≤ y' - x')]
  rw [habs] at hg
  have hgrid : IsGrid t x' |d| (max 1 ⌊(y' - x') / |d|⌋₊) := by
    rcases hstep with h1 | h1
    · rw [h1] at hg; exact hg
    · subst h1
      simp only [sub_self, zero_div, Nat.floor_zero] at hg ⊢
      refine ⟨hg.1, fun i hi => ?_⟩
      have : i = 0 := by simp at hi; omega
      subst this
      rw [hg.2 0 (by simp)]; simp
  subst he
  have hlen : t.length = max 1 ⌊(y' - x') / |d|⌋₊ := hgrid.1
  refine ⟨hd0, by simp only; rw [hlen]; exact hgrid, hlen, ?_⟩
  intro i v hi hv
  simp only at hv
  have hil : i < t.length := by
    by_contra hc
    rw [List.getElem?_eq_none (by omega)] at hv; cases hv
  rw [hlen] at hil
  rw [hgrid.2 i hil] at hv
  cases hv
  have hfl : i < ⌊(y' - x') / |d|⌋₊ := by
    rcases lt_max_iff.mp hil with h1 | h1 <;> omega
  have hpos : 0 < |d| := abs_pos.mpr hd0
  have h2 : (i : ℚ) < (y' - x') / |d| :=
    lt_of_lt_of_le (by exact_mod_cast hfl)
      (Nat.floor_le (div_nonneg (by linarith) hpos.le))
  rw [lt_div_iff₀ hpos] at h2
  linarith

/-- C03: such environments are accepted. -/
theorem C03_accepted (d x y : ℚ) (hd : 0 < d) (hxy : x ≤ y) :
    ∃ e, Env.make { dt := some (.given d), t0 := some (.given x), t1 := some (.given y) } = .ok e := by
  obtain ⟨l, hl⟩ := arange_of_ne (s := x) (e := y) hd.ne'
  obtain ⟨-, hg⟩ := arange_ok hl
  set o : Overrides :=
    { dt := some (.given d), t0 := some (.given x), t1 := some (.given y) } with ho
  have hchk : checkArgs (defaultArgs.update o) = .ok () := by
    rw [checkArgs_ok]
    refine ⟨?_, d, x, y, .inr rfl, .inr rfl, .inr rfl, hd.le, hxy⟩
    rw [← exclGuard_iff]
    simp [exclGuard, countGiven, Args.update, defaultArgs, ho, Arg.isDefault]
  have hlne : l ≠ [] := by
    intro h; have := hg.1; simp [h] at this; omega
  have hsr : ∃ sr, recipOpt (firstStep l) = .ok sr := by
    by_cases h2 : 2 ≤ max 1 ⌊|(y - x) / d|⌋₊
    · rw [IsGridL.firstStep_eq hg h2, if_pos (div_nonneg (by linarith) hd.le)]
      exact ⟨some (1 / d), by simp [recipOpt, pyDiv_of_ne hd.ne']⟩
    · rw [IsGridL.firstStep_none (by rw [hg.1]; omega)]
      exact ⟨none, rfl⟩
  obtain ⟨sr, hsr⟩ := hsr
  refine ⟨_, init_mk (c := 299792458) (br0 := none) (t0l := l) (wl := [155 / 10 ^ 8])
    (f := [299792458 / (155 / 10 ^ 8)]) (sr := sr) (bl := none)
    (.inl rfl) hchk (by rfl) ?_ hlne (by rfl) (by simp) ?_ (by rfl) ?_⟩
  · rw [timeArr_grid (by rintro ⟨v, hv⟩; simp [Args.update, defaultArgs, ho] at hv) (.inl ⟨d, rfl⟩)]
    simp [Args.update, defaultArgs, ho, Arg.isDefault, stepArg, hl]
  · simpa [Args.update, defaultArgs, ho] using hsr
  · norm_num [npDivArr]

example : (0 : ℚ) < 1 / 10 ^ 13 ∧ (0 : ℚ) ≤ 1 := by norm_num

/-! ## C04 -/

/-- C04: the derived time attributes of every environment are consistent. -/
theorem C04_time_attributes (a : Args) (e : Env) (h : Env.init a = .ok e) :
    e.num_t = e.t.length ∧ 1 ≤ e.num_t ∧ e.t[0]? = some e.t0 ∧
    (e.num_t = 1 → e.dt = none ∧ e.samplerate = none ∧ e.t1 = none) ∧
    (2 ≤ e.num_t → ∃ d r y z, e.dt = some d ∧ e.samplerate = some r ∧ e.t1 = some y ∧
      e.t[1]? = some (e.t0 + d) ∧ r * d = 1 ∧ e.t.getLast? = some z ∧ y = z + d) ∧
    (∀ b, e.bitrate = some b → ∃ l, e.bitlength = some l ∧ b * l = 1) ∧
    (e.bitrate = none → e.bitlength = none) := by
  obtain ⟨c, br0, t0l, wl0l, t, wl, f, sr, bl, hc, hchk, hbr, ht, htt, htne, hwl, -, -, hsr, hbl, -, he⟩ :=
    init_ok h
  have hrec : ∀ o o', recipOpt o = .ok o' → (o = none → o' = none) ∧
      ∀ b, o = some b → ∃ l, o' = some l ∧ b * l = 1 := by
    intro o o' ho
    cases o with
    | none => cases ho; simp
    | some b =>
      simp only [recipOpt, bind_eq_ok, pyDiv_eq_ok, pure_eq_ok] at ho
      obtain ⟨z, ⟨hb, rfl⟩, ho⟩ := ho
      cases ho
      refine ⟨by simp, ?_⟩
      rintro b' hb'
      cases hb'
      exact ⟨1 / b, rfl, by field_simp⟩
  have hb := hrec _ _ hbl
  have hs := hrec _ _ hsr
  subst he
  simp only
  match t, htne with
  | [x], _ =>
    refine ⟨trivial, by simp, by simp, ?_, by simp, hb.2, hb.1⟩
    intro _
    exact ⟨rfl, hs.1 rfl, rfl⟩
  | x :: y :: l, _ =>
    refine ⟨trivial, by simp, by simp, by simp, ?_, hb.2, hb.1⟩
    intro _
    obtain ⟨r, hr, hr1⟩ := hs.2 (y - x) rfl
    refine ⟨y - x, r, _, (x :: y :: l).getLast (by simp), rfl, hr, rfl, by simp, by linarith, ?_, ?_⟩
    · rw [List.getLast?_eq_some_getLast]
    · unfold lastD
      rw [List.getLastD_eq_getLast?, List.getLast?_eq_some_getLast (by simp)]
      simp

/-- C04: on a uniform grid, `t1 = t0 + num_t*dt`. -/
theorem C04_uniform_end (a : Args) (e : Env) (h : Env.init a = .ok e) (hu : Uniform e.t)
    (h2 : 2 ≤ e.num_t) : ∃ d, e.dt = some d ∧ e.t1 = some (e.t0 + e.num_t * d) := by
  obtain ⟨c, br0, t0l, wl0l, t, wl, f, sr, bl, hc, hchk, hbr, ht, htt, htne, hwl, -, -, hsr, hbl, -, he⟩ :=
    init_ok h
  subst he
  simp only at *
  obtain ⟨s, d, hg⟩ := hu
  exact ⟨d, IsGridL.firstStep_eq hg h2, by
    rw [IsGridL.timeEnd_eq hg h2, IsGridL.headD hg (by omega)]⟩

example : ∃ e, Env.make { dt := some (.given 1), num_t := some (.given 3) } = .ok e ∧
    Uniform e.t ∧ 2 ≤ e.num_t := by
  have h : (Env.make { dt := some (.given 1), num_t := some (.given 3) }).map
      (fun e => (e.t, e.num_t)) = .ok ([0, 1, 2], 3) := by decide +kernel
  match hm : Env.make { dt := some (.given 1), num_t := some (.given 3) }, h with
  | .ok e, h =>
    simp only [Except.map, Except.ok.injEq, Prod.mk.injEq] at h
    refine ⟨e, rfl, ⟨0, 1, ?_⟩, by omega⟩
    rw [h.1]
    refine ⟨rfl, fun i hi => ?_⟩
    match i, hi with
    | 0, _ => norm_num
    | 1, _ => norm_num
    | 2, _ => norm_num

/-- C04: a supplied `bitlength` or `bitrate` is the one of the environment (outside the frequency
domain, where there is none). -/
theorem C04_bit_arguments (a : Args) (e : Env) (v : ℚ) (h : Env.init a = .ok e)
    (hf : a.freqdomain = false) :
    (a.bitlength = .given v → e.bitlength = some v ∧ ∃ b, e.bitrate = some b ∧ b * v = 1) ∧
    (a.bitrate = .given v → e.bitrate = some v ∧ ∃ l, e.bitlength = some l ∧ l * v = 1) := by
  obtain ⟨c, br0, t0l, wl0l, t, wl, f, sr, bl, hc, hchk, hbr, ht, htt, htne, hwl, -, -, hsr, hbl, -, he⟩ :=
    init_ok h
  subst he
  simp only [hf, Bool.false_eq_true, if_false] at hbl ⊢
  constructor
  · intro hv
    unfold bitrateOf at hbr
    rw [hv] at hbr
    simp only [Arg.isDefault, Bool.not_false, if_true, Arg.val, bind_eq_ok, pyDiv_eq_ok,
      pure_eq_ok] at hbr
    obtain ⟨z, hz, y, ⟨hy, rfl⟩, hbr⟩ := hbr
    cases hz
    cases hbr
    simp only [recipOpt, bind_eq_ok, pyDiv_eq_ok, pure_eq_ok] at hbl
    obtain ⟨z, ⟨hb, rfl⟩, ho⟩ := hbl
    cases ho
    exact ⟨by rw [one_div_one_div], 1 / v, rfl, by field_simp⟩
  · intro hv
    have hno : ¬ Supplied a .bitlength := fun hs =>
      (checkArgs_ok.mp hchk).1 ⟨(.bitrate, .bitlength), by decide, ⟨v, hv⟩, hs⟩
    unfold bitrateOf at hbr
    have hd : a.bitlength.isDefault = true := by
      by_contra hc
      exact hno ((isDefault_false_iff _).1 (by simpa using hc))
    rw [hv, hd] at hbr
    simp only [Bool.not_true, Bool.false_eq_true, if_false, pure_eq_ok] at hbr
    cases hbr
    simp only [recipOpt, bind_eq_ok, pyDiv_eq_ok, pure_eq_ok] at hbl
    obtain ⟨z, ⟨hb, rfl⟩, ho⟩ := hbl
    cases ho
    exact ⟨rfl, 1 / v, rfl, by field_simp⟩

/-- Concrete arguments with a bit length. -/
def bitArgs : Overrides :=
  { dt := some (.given 1), num_t := some (.given 3), bitlength := some (.given 2) }

example : ∃ e, Env.make bitArgs = .ok e ∧ e.bitrate = some (1 / 2) := by
  have h : (Env.make bitArgs).map (fun e => e.bitrate) = .ok (some (1 / 2)) := by decide +kernel
  match hm : Env.make bitArgs, h with
  | .ok e, h => exact ⟨e, rfl, by simpa [Except.map] using h⟩

/-! ## C05 -/

/-- The wavelength range bound given by the arguments: `c/f0` if the frequency is supplied, else the
wavelength. -/
def WlBound (c : ℚ) (wlArg fArg : Arg ℚ) (x : ℚ) : Prop :=
  (∃ q, fArg = .given q ∧ q ≠ 0 ∧ x = c / q) ∨ ((¬ ∃ q, fArg = .given q) ∧ HasValue wlArg x)

theorem wlBound_ok {c : ℚ} {w f : Arg ℚ} {x : ℚ} :
    wlBoundOf c f w = .ok x ↔ WlBound c w f x := by
  unfold WlBound wlBoundOf
  cases f with
  | given q => simp [Arg.isDefault, show (Arg.given q).val = .ok q from rfl, pyDiv_eq_ok]
  | dflt q => simp [Arg.isDefault, val_eq_ok]
  | none => simp [Arg.isDefault, val_eq_ok]

/-- C05: `num_wl = N` (N ≥ 1) gives exactly `N` equally spaced wavelengths from the first bound
towards the second, `num_f` agrees, and frequencies are `c/wl`. -/
theorem C05_num_wl_grid (a : Args) (e : Env) (c : ℚ) (N : ℤ) (x y : ℚ) (h : Env.init a = .ok e)
    (hN : a.num_wl = .given N) (hc : HasValue a.c c) (hN1 : 1 ≤ N)
    (hx : WlBound c a.wl0 a.f0 x) (hy : WlBound c a.wl1 a.f1 y) :
    x ≠ y ∧ IsGrid e.wl x ((y - x) / N) e.num_wl ∧ (e.num_wl : ℤ) = N ∧ e.num_f = e.num_wl ∧
      e.wl0 = x ∧ (2 ≤ N → e.wl1 = some y ∧ e.dwl = some ((y - x) / N)) ∧
      ∀ (i : ℕ) (w : ℚ), e.wl[i]? = some w → ∃ q, e.f[i]? = some q ∧ q * w = c := by
  obtain ⟨c', br0, t0l, wl0l, t, wl, f, sr, bl, hc', hchk, hbr, ht, htt, htne, hwl, hww, hwne, hsr, hbl, hf, he⟩ :=
    init_ok h
  have hcc : c' = c := by rcases hc with h1 | h1 <;> rcases hc' with h2 | h2 <;> simp_all
  subst hcc hww
  have hNC := (checkArgs_ok.mp hchk).1
  have hsup : Supplied a .num_wl := ⟨N, hN⟩
  have no : ∀ k, (ArgName.num_wl, k) ∈ exclusivePairs ∨ (k, ArgName.num_wl) ∈ exclusivePairs →
      ¬ Supplied a k := by
    intro k hk hs
    rcases hk with hk | hk
    · exact hNC ⟨_, hk, hsup, hs⟩
    · exact hNC ⟨_, hk, hs, hsup⟩
  have d1 : a.wl.isDefault = true := (isDefault_iff _).mpr (no .wl (by decide))
  have d2 : a.f.isDefault = true := (isDefault_iff _).mpr (no .f (by decide))
  have d3 : a.num_f.isDefault = true := (isDefault_iff _).mpr (no .num_f (by decide))
  have d4 : a.df.isDefault = true := (isDefault_iff _).mpr (no .df (by decide))
  have d5 : a.num_wl.isDefault = false := (isDefault_false_iff _).mpr hsup
  unfold wlArr at hwl
  rw [if_neg] at hwl
  swap
  · simp only [d1, d2, Bool.not_true, Bool.or_false, Bool.false_or, decide_eq_true_eq]
    rw [count_zero]
    simp [d5]
  unfold wlStepOf at hwl
  simp only [d3, d4, d5, Bool.not_true, Bool.false_eq_true, if_false, Bool.not_false, if_true] at hwl
  rw [wlBound_ok.mpr hx, wlBound_ok.mpr hy] at hwl
  simp only [ok_bind, hN, Arg.val, bind_eq_ok, pyDiv_eq_ok, pure_eq_ok] at hwl
  obtain ⟨dwl, ⟨hN0, rfl⟩, l, hl, hl2⟩ := hwl
  cases hl2
  obtain ⟨hd0, hg⟩ := arange_ok hl
  have hyx : y - x ≠ 0 := by intro h0; rw [h0] at hd0; simp at hd0
  have hq : (y - x) / ((y - x) / (N : ℚ)) = N := by field_simp
  have hNq : (0 : ℚ) ≤ N := by exact_mod_cast (by omega : 0 ≤ N)
  rw [hq, abs_of_nonneg hNq, if_pos hNq] at hg
  have hfl : ⌊(N : ℚ)⌋₊ = N.toNat := by
    have : (N : ℚ) = ((N.toNat : ℕ) : ℚ) := by
      have : (N.toNat : ℤ) = N := Int.toNat_of_nonneg (by omega)
      exact_mod_cast this.symm
    rw [this, Nat.floor_natCast]
  rw [hfl, max_eq_right (by omega)] at hg
  obtain ⟨hf0, rfl⟩ := npDivArr_eq_ok.mp hf
  have hlen : wl.length = N.toNat := hg.1
  have hNN : ((N.toNat : ℕ) : ℚ) = (N : ℚ) := by
    have : (N.toNat : ℤ) = N := Int.toNat_of_nonneg (by omega)
    exact_mod_cast this
  subst he
  simp only [List.length_map]
  refine ⟨by intro hxy; apply hyx; linarith, by rw [hlen]; exact hg, by omega, trivial,
    IsGridL.headD hg (by omega), ?_, ?_⟩
  · intro h2
    rw [IsGridL.gridEnd_eq hg (by omega), IsGridL.firstStep_eq hg (by omega), hNN]
    refine ⟨?_, rfl⟩
    congr 1
    have : (N : ℚ) ≠ 0 := hN0
    field_simp; ring
  · intro i w hw
    refine ⟨c' / w, by simp [hw], ?_⟩
    have : w ≠ 0 := by
      rintro rfl
      exact hf0 (List.mem_of_getElem? hw)
    field_simp

/-- C05: such environments are accepted for positive distinct bounds. -/
theorem C05_accepted (x y : ℚ) (N : ℕ) (hx : 0 < x) (hy : 0 < y) (hxy : x ≠ y) (hN : 1 ≤ N) :
    ∃ e, Env.make { wl0 := some (.given x), wl1 := some (.given y), num_wl := some (.given N) } =
      .ok e := by
  have hNq : (0 : ℚ) < N := by exact_mod_cast hN
  have hyx : y - x ≠ 0 := by intro h; apply hxy; linarith
  have hd : (y - x) / (N : ℚ) ≠ 0 := div_ne_zero hyx hNq.ne'
  obtain ⟨l, hl⟩ := arange_of_ne (s := x) (e := y) hd
  obtain ⟨-, hg⟩ := arange_ok hl
  have hq : (y - x) / ((y - x) / (N : ℚ)) = N := by field_simp
  rw [hq, abs_of_pos hNq, if_pos hNq.le, Nat.floor_natCast, max_eq_right hN] at hg
  set o : Overrides :=
    { wl0 := some (.given x), wl1 := some (.given y), num_wl := some (.given N) } with ho
  have hchk : checkArgs (defaultArgs.update o) = .ok () := by
    rw [checkArgs_ok]
    refine ⟨?_, 1 / 10 ^ 14, 0, 1 / 10 ^ 12, .inl rfl, .inl rfl, .inl rfl, by norm_num, by norm_num⟩
    rw [← exclGuard_iff]
    simp [exclGuard, countGiven, Args.update, defaultArgs, ho, Arg.isDefault]
  have hlne : l ≠ [] := by
    intro h; have := hg.1; simp [h] at this; omega
  have h0 : (0 : ℚ) ∉ l := by
    intro h
    obtain ⟨i, hi⟩ := List.getElem?_of_mem h
    have hil : i < N := by
      by_contra hc
      rw [List.getElem?_eq_none (by have := hg.1; omega)] at hi; cases hi
    rw [hg.2 i hil] at hi
    simp only [Option.some.injEq] at hi
    have h1 : x + (i : ℚ) * ((y - x) / N) = (x * (N - i) + y * i) / N := by field_simp; ring
    rw [h1, div_eq_zero_iff] at hi
    have hiq : (i : ℚ) < N := by exact_mod_cast hil
    have hi0 : (0 : ℚ) ≤ i := by positivity
    rcases hi with hi | hi
    · have : 0 < x * (N - i) := mul_pos hx (by linarith)
      have : 0 ≤ y * i := mul_nonneg hy.le hi0
      linarith
    · linarith
  refine ⟨_, init_mk (c := 299792458) (br0 := none) (t0l := defaultT) (wl := l)
    (f := l.map (299792458 / ·)) (sr := some (10 ^ 14)) (bl := none)
    (.inl rfl) hchk (by rfl) ?_ (by simp [defaultT]) ?_ hlne ?_ (by rfl) ?_⟩
  · rw [timeArr_array]
    · rfl
    · right
      simp [Supplied, Args.update, defaultArgs, ho]
  · unfold wlArr wlBoundOf wlStepOf
    simp [Args.update, defaultArgs, ho, Arg.isDefault, Arg.val, countGiven,
      pyDiv_of_ne hNq.ne', hl]
  · show recipOpt (firstStep defaultT) = _
    decide +kernel
  · exact npDivArr_eq_ok.mpr ⟨h0, rfl⟩

example : (0 : ℚ) < 15 / 10 ^ 7 ∧ (0 : ℚ) < 16 / 10 ^ 7 ∧ (15 / 10 ^ 7 : ℚ) ≠ 16 / 10 ^ 7 ∧
    1 ≤ 1000 := by norm_num

/-- `arange` steps from its start towards its end, whatever the sign of the step. -/
theorem arange_towards {x y D : ℚ} {l : List ℚ} (h : arange x y D = .ok l) :
    D ≠ 0 ∧ IsGrid l x (if x ≤ y then |D| else -|D|) (max 1 ⌊|y - x| / |D|⌋₊) := by
  obtain ⟨hd, hg⟩ := arange_ok h
  refine ⟨hd, ?_⟩
  rw [abs_div] at hg
  rcases eq_or_ne x y with rfl | hxy
  · have e : max 1 ⌊|x - x| / |D|⌋₊ = 1 := by simp
    rw [e] at hg ⊢
    refine ⟨hg.1, fun i hi => ?_⟩
    rw [hg.2 i hi]
    obtain rfl : i = 0 := by omega
    simp
  · have : (if 0 ≤ (y - x) / D then D else -D) = if x ≤ y then |D| else -|D| := by
      rcases lt_or_gt_of_ne hd with hD | hD
      · rw [abs_of_neg hD]
        by_cases hle : x ≤ y
        · have : ¬0 ≤ (y - x) / D := not_le.mpr (div_neg_of_pos_of_neg (by
            rcases lt_or_eq_of_le hle with h | h
            · linarith
            · exact absurd h hxy) hD)
          rw [if_neg this, if_pos hle]
        · have : 0 ≤ (y - x) / D := div_nonneg_of_nonpos (by linarith) hD.le
          rw [if_pos this, if_neg hle, neg_neg]
      · rw [abs_of_pos hD]
        by_cases hle : x ≤ y
        · rw [if_pos (div_nonneg (by linarith) hD.le), if_pos hle]
        · rw [if_neg (not_le.mpr (div_neg_of_neg_of_pos (by linarith) hD)), if_neg hle]
    rw [this] at hg
    exact hg

/-- The points of such a grid lie between its bounds, and only the first may be a bound. -/
theorem towards_between {x y D : ℚ} (hD : D ≠ 0) {l : List ℚ}
    (h : IsGrid l x (if x ≤ y then |D| else -|D|) (max 1 ⌊|y - x| / |D|⌋₊)) (w : ℚ) (hw : w ∈ l) :
    w = x ∨ x < w ∧ w < y ∨ y < w ∧ w < x := by
  obtain ⟨i, hi⟩ := List.getElem?_of_mem hw
  have hil : i < max 1 ⌊|y - x| / |D|⌋₊ := by
    by_contra hc
    rw [List.getElem?_eq_none (by have := h.1; omega)] at hi
    cases hi
  rw [h.2 i hil] at hi
  have hi' := Option.some.inj hi
  rcases Nat.eq_zero_or_pos i with rfl | hpos
  · left
    rw [← hi']
    simp
  · right
    have hD' := abs_pos.mpr hD
    have h1 : i < ⌊|y - x| / |D|⌋₊ := by omega
    have h2 : ((i + 1 : ℕ) : ℚ) ≤ |y - x| / |D| := (Nat.le_floor_iff (by positivity)).mp h1
    rw [le_div_iff₀ hD'] at h2
    push_cast at h2
    have h3 : (0 : ℚ) < i := by exact_mod_cast hpos
    have h4 := mul_pos h3 hD'
    split_ifs at hi' with hle
    · left
      rw [abs_of_nonneg (show 0 ≤ y - x by linarith)] at h2
      constructor <;> nlinarith
    · right
      rw [abs_of_neg (show y - x < 0 by linarith)] at h2
      constructor <;> nlinarith

/-- C05: a step `dwl = D` of either sign gives the wavelengths from the first bound towards the second in steps of `|D|`, as many as
fit, all of them between the bounds. -/
theorem C05_dwl_grid (a : Args) (e : Env) (c D x y : ℚ) (h : Env.init a = .ok e)
    (hN : a.dwl = .given D) (hc : HasValue a.c c) (hx : WlBound c a.wl0 a.f0 x) (hy : WlBound c a.wl1 a.f1 y) :
    D ≠ 0 ∧ IsGrid e.wl x (if x ≤ y then |D| else -|D|) e.num_wl ∧ e.num_wl = max 1 ⌊|y - x| / |D|⌋₊ ∧
      (∀ w ∈ e.wl, w = x ∨ x < w ∧ w < y ∨ y < w ∧ w < x) ∧ e.num_f = e.num_wl ∧ e.wl0 = x ∧
      ∀ (i : ℕ) (w : ℚ), e.wl[i]? = some w → ∃ q, e.f[i]? = some q ∧ q * w = c := by
  obtain ⟨c', br0, t0l, wl0l, t, wl, f, sr, bl, hc', hchk, hbr, ht, htt, htne, hwl, hww, hwne, hsr, hbl, hf, he⟩ :=
    init_ok h
  have hcc : c' = c := by rcases hc with h1 | h1 <;> rcases hc' with h2 | h2 <;> simp_all
  subst hcc hww
  have hNC := (checkArgs_ok.mp hchk).1
  have hsup : Supplied a .dwl := ⟨D, hN⟩
  have no : ∀ k, (ArgName.dwl, k) ∈ exclusivePairs ∨ (k, ArgName.dwl) ∈ exclusivePairs →
      ¬ Supplied a k := by
    intro k hk hs
    rcases hk with hk | hk
    · exact hNC ⟨_, hk, hsup, hs⟩
    · exact hNC ⟨_, hk, hs, hsup⟩
  have d1 : a.wl.isDefault = true := (isDefault_iff _).mpr (no .wl (by decide))
  have d2 : a.f.isDefault = true := (isDefault_iff _).mpr (no .f (by decide))
  have d3 : a.num_f.isDefault = true := (isDefault_iff _).mpr (no .num_f (by decide))
  have d4 : a.df.isDefault = true := (isDefault_iff _).mpr (no .df (by decide))
  have d5 : a.num_wl.isDefault = true := (isDefault_iff _).mpr (no .num_wl (by decide))
  have d6 : a.dwl.isDefault = false := (isDefault_false_iff _).mpr hsup
  unfold wlArr at hwl
  rw [if_neg] at hwl
  swap
  · simp only [d1, d2, Bool.not_true, Bool.or_false, Bool.false_or, decide_eq_true_eq]
    rw [count_zero]
    simp [d6]
  unfold wlStepOf at hwl
  simp only [d3, d4, d5, Bool.not_true, Bool.false_eq_true, if_false] at hwl
  rw [wlBound_ok.mpr hx, wlBound_ok.mpr hy] at hwl
  simp only [ok_bind, hN, Arg.val, bind_eq_ok, pure_eq_ok] at hwl
  obtain ⟨l, hl, hl2⟩ := hwl
  cases hl2
  obtain ⟨hd0, hg⟩ := arange_towards hl
  obtain ⟨hf0, rfl⟩ := npDivArr_eq_ok.mp hf
  have hlen := hg.1
  subst he
  simp only [List.length_map]
  refine ⟨hd0, by rw [hlen]; exact hg, hlen, towards_between hd0 hg, trivial, IsGridL.headD hg (by omega), ?_⟩
  intro i w hw
  refine ⟨c' / w, by simp [hw], ?_⟩
  have : w ≠ 0 := by
    rintro rfl
    exact hf0 (List.mem_of_getElem? hw)
  field_simp

/-- Wavelengths 3, 2.5 from bounds 3 and 2 with a step of 1/2. -/
example : ∃ e, Env.init (defaultArgs.update
    { dwl := some (.given (1 / 2)), wl0 := some (.given 3), wl1 := some (.given 2) }) = .ok e ∧ e.wl = [3, 5 / 2] := by
  match h : Env.init (defaultArgs.update
    { dwl := some (.given (1 / 2)), wl0 := some (.given 3), wl1 := some (.given 2) }) with
  | .ok e =>
    refine ⟨e, rfl, ?_⟩
    have : (match Env.init (defaultArgs.update
      { dwl := some (.given (1 / 2)), wl0 := some (.given 3), wl1 := some (.given 2) }) with
      | .ok e => e.wl | .error _ => []) = [3, 5 / 2] := by decide +kernel
    rw [h] at this
    exact this
  | .error e =>
    exfalso
    have : (Env.init (defaultArgs.update
      { dwl := some (.given (1 / 2)), wl0 := some (.given 3), wl1 := some (.given 2) })).isOk = true := by
      decide +kernel
    rw [h] at this; cases this

/-! ## C06 -/

/-- C06 full statement: a frequency grid of `N` points can be bounded by two wavelengths. -/
def C06_statement : Prop :=
  ∀ (x y : ℚ) (N : ℕ), 0 < x → 0 < y → x ≠ y → 1 ≤ N →
    ∃ e, Env.make { num_f := some (.given N), wl0 := some (.given x), wl1 := some (.given y) } = .ok e

/-- C06 is violated, and not only for some inputs: the call always raises
`ZeroDivisionError`. -/
theorem C06_always_fails (x y : ℚ) (N : ℤ) :
    Env.make { num_f := some (.given N), wl0 := some (.given x), wl1 := some (.given y) } =
      .error .zeroDivision := by
  set o : Overrides :=
    { num_f := some (.given N), wl0 := some (.given x), wl1 := some (.given y) } with ho
  have hchk : checkArgs (defaultArgs.update o) = .ok () := by
    rw [checkArgs_ok]
    refine ⟨?_, 1 / 10 ^ 14, 0, 1 / 10 ^ 12, .inl rfl, .inl rfl, .inl rfl, by norm_num, by norm_num⟩
    rw [← exclGuard_iff]
    simp [exclGuard, countGiven, Args.update, defaultArgs, ho, Arg.isDefault]
  have ht : timeArr (defaultArgs.update o) = .ok (some defaultT) := by
    rw [timeArr_array]
    · rfl
    · right
      simp [Supplied, Args.update, defaultArgs, ho]
  have hwl : wlArr 299792458 (defaultArgs.update o) = .error .zeroDivision := by
    unfold wlArr freqTop freqBottom
    simp [Args.update, defaultArgs, ho, Arg.isDefault, Arg.val, countGiven]
    by_cases hx : x = 0
    · simp [pyDiv, hx]
    · simp only [pyDiv_of_ne hx, ok_bind, sub_self]
      by_cases hN : N = 0
      · simp [pyDiv, hN]
      · have : (N : ℚ) ≠ 0 := by exact_mod_cast hN
        simp [pyDiv_of_ne this, arange_zero]
  have hbr : bitrateOf (defaultArgs.update o) = .ok none := rfl
  have hcv : (defaultArgs.update o).c.val = .ok 299792458 := rfl
  unfold Env.make Env.init
  simp only [hcv, hchk, hbr, ht, hwl, ok_bind, error_bind]

theorem C06_violation : ¬ C06_statement := by
  intro h
  obtain ⟨e, he⟩ := h 1 2 1 (by norm_num) (by norm_num) (by norm_num) (by norm_num)
  rw [C06_always_fails] at he
  cases he

/-- C06, what holds: with frequency bounds `f0`, `f1`, the environment's frequencies are the `N`
equally spaced ones.  Missing: bounds given as wavelengths (see `C06_always_fails`). -/
theorem C06_freq_bounds_partial (a : Args) (e : Env) (c : ℚ) (N : ℤ) (x y : ℚ)
    (h : Env.init a = .ok e) (hc : HasValue a.c c) (hc0 : c ≠ 0)
    (hN : a.num_f = .given N) (hN1 : 1 ≤ N) (hx : HasValue a.f0 x) (hy : HasValue a.f1 y)
    (hw0 : ¬ Supplied a .wl0) (hw1 : ¬ Supplied a .wl1) :
    IsGrid e.f x ((y - x) / N) e.num_f ∧ (e.num_f : ℤ) = N ∧ e.num_wl = e.num_f ∧ e.f0 = x ∧
      ∀ (i : ℕ) (q : ℚ), e.f[i]? = some q → ∃ w, e.wl[i]? = some w ∧ q * w = c := by
  obtain ⟨c', br0, t0l, wl0l, t, wl, f, sr, bl, hc', hchk, hbr, ht, htt, htne, hwl, hww, hwne, hsr, hbl, hf, he⟩ :=
    init_ok h
  have hcc : c' = c := by rcases hc with h1 | h1 <;> rcases hc' with h2 | h2 <;> simp_all
  subst hcc hww
  have hNC := (checkArgs_ok.mp hchk).1
  have hsup : Supplied a .num_f := ⟨N, hN⟩
  have d1 : a.wl.isDefault = true :=
    (isDefault_iff _).mpr fun hs => hNC ⟨(.num_f, .wl), by decide, hsup, hs⟩
  have d2 : a.f.isDefault = true :=
    (isDefault_iff _).mpr fun hs => hNC ⟨(.num_f, .f), by decide, hsup, hs⟩
  have d3 : a.num_f.isDefault = false := (isDefault_false_iff _).mpr hsup
  have d4 : a.wl0.isDefault = true := (isDefault_iff _).mpr hw0
  have d5 : a.wl1.isDefault = true := (isDefault_iff _).mpr hw1
  unfold wlArr freqTop freqBottom at hwl
  rw [if_neg] at hwl
  swap
  · simp only [d1, d2, Bool.not_true, Bool.or_false, Bool.false_or, decide_eq_true_eq]
    rw [count_zero]
    simp [d3]
  simp only [d3, d4, d5, Bool.not_true, Bool.false_eq_true, if_false, Bool.not_false, if_true] at hwl
  rw [val_eq_ok.mpr hx, val_eq_ok.mpr hy, hN] at hwl
  simp only [ok_bind, val_given, bind_eq_ok, pyDiv_eq_ok, pure_eq_ok] at hwl
  obtain ⟨df, ⟨hN0, rfl⟩, l, hl, m, hm, hl2⟩ := hwl
  cases hl2
  obtain ⟨hl0, rfl⟩ := npDivArr_eq_ok.mp hm
  obtain ⟨hd0, hg⟩ := arange_ok hl
  have hyx : y - x ≠ 0 := by intro h0; rw [h0] at hd0; simp at hd0
  have hq : (y - x) / ((y - x) / (N : ℚ)) = N := by field_simp
  have hNq : (0 : ℚ) ≤ N := by exact_mod_cast (by omega : 0 ≤ N)
  rw [hq, abs_of_nonneg hNq, if_pos hNq] at hg
  have hNN : ((N.toNat : ℕ) : ℚ) = (N : ℚ) := by
    have : (N.toNat : ℤ) = N := Int.toNat_of_nonneg (by omega)
    exact_mod_cast this
  rw [← hNN, Nat.floor_natCast, max_eq_right (by omega)] at hg
  obtain ⟨hf0, rfl⟩ := npDivArr_eq_ok.mp hf
  have hff : (List.map (fun x => c' / x) l).map (fun x => c' / x) = l := by
    rw [List.map_map]
    conv_rhs => rw [← List.map_id l]
    apply List.map_congr_left
    intro q hq
    have : q ≠ 0 := by rintro rfl; exact hl0 hq
    simp only [Function.comp, id]
    field_simp
  rw [hff] at he
  have hlen : l.length = N.toNat := hg.1
  subst he
  simp only [List.length_map]
  rw [hNN] at hg
  refine ⟨by rw [hlen]; exact hg, by omega, trivial, IsGridL.headD hg (by omega), ?_⟩
  intro i q hq
  refine ⟨c' / q, by simp [hq], ?_⟩
  have : q ≠ 0 := by rintro rfl; exact hl0 (List.mem_of_getElem? hq)
  field_simp

example : ∃ e, Env.init (defaultArgs.update
    { num_f := some (.given 3), f0 := some (.given 1), f1 := some (.given 4) }) = .ok e := by
  match h : Env.init (defaultArgs.update
    { num_f := some (.given 3), f0 := some (.given 1), f1 := some (.given 4) }) with
  | .ok e => exact ⟨e, rfl⟩
  | .error e =>
    exfalso
    have : (Env.init (defaultArgs.update
      { num_f := some (.given 3), f0 := some (.given 1), f1 := some (.given 4) })).isOk = true := by
      decide +kernel
    rw [h] at this; cases this

/-- C06, what holds for a frequency step: with frequency bounds `f0`, `f1` the frequencies go from the first towards the second in
steps of `|D|`, whatever the sign of `df = D`.  Missing: bounds given as wavelengths (see `C06_always_fails`). -/
theorem C06_df_partial (a : Args) (e : Env) (c D x y : ℚ) (h : Env.init a = .ok e) (hc : HasValue a.c c) (hc0 : c ≠ 0)
    (hN : a.df = .given D) (hx : HasValue a.f0 x) (hy : HasValue a.f1 y)
    (hw0 : ¬ Supplied a .wl0) (hw1 : ¬ Supplied a .wl1) :
    D ≠ 0 ∧ IsGrid e.f x (if x ≤ y then |D| else -|D|) e.num_f ∧ e.num_f = max 1 ⌊|y - x| / |D|⌋₊ ∧
      (∀ w ∈ e.f, w = x ∨ x < w ∧ w < y ∨ y < w ∧ w < x) ∧ e.num_wl = e.num_f ∧ e.f0 = x ∧
      ∀ (i : ℕ) (q : ℚ), e.f[i]? = some q → ∃ w, e.wl[i]? = some w ∧ q * w = c := by
  obtain ⟨c', br0, t0l, wl0l, t, wl, f, sr, bl, hc', hchk, hbr, ht, htt, htne, hwl, hww, hwne, hsr, hbl, hf, he⟩ :=
    init_ok h
  have hcc : c' = c := by rcases hc with h1 | h1 <;> rcases hc' with h2 | h2 <;> simp_all
  subst hcc hww
  have hNC := (checkArgs_ok.mp hchk).1
  have hsup : Supplied a .df := ⟨D, hN⟩
  have no : ∀ k, (ArgName.df, k) ∈ exclusivePairs ∨ (k, ArgName.df) ∈ exclusivePairs →
      ¬ Supplied a k := by
    intro k hk hs
    rcases hk with hk | hk
    · exact hNC ⟨_, hk, hsup, hs⟩
    · exact hNC ⟨_, hk, hs, hsup⟩
  have d1 : a.wl.isDefault = true := (isDefault_iff _).mpr (no .wl (by decide))
  have d2 : a.f.isDefault = true := (isDefault_iff _).mpr (no .f (by decide))
  have d3 : a.num_f.isDefault = true := (isDefault_iff _).mpr (no .num_f (by decide))
  have d6 : a.df.isDefault = false := (isDefault_false_iff _).mpr hsup
  have d4 : a.wl0.isDefault = true := (isDefault_iff _).mpr hw0
  have d5 : a.wl1.isDefault = true := (isDefault_iff _).mpr hw1
  unfold wlArr freqTop freqBottom at hwl
  rw [if_neg] at hwl
  swap
  · simp only [d1, d2, Bool.not_true, Bool.or_false, Bool.false_or, decide_eq_true_eq]
    rw [count_zero]
    simp [d6]
  simp only [d3, d4, d5, d6, Bool.not_true, Bool.false_eq_true, if_false, Bool.not_false, if_true] at hwl
  rw [val_eq_ok.mpr hx, val_eq_ok.mpr hy, hN] at hwl
  simp only [ok_bind, val_given, bind_eq_ok, pure_eq_ok] at hwl
  obtain ⟨l, hl, m, hm, hl2⟩ := hwl
  cases hl2
  obtain ⟨hl0, rfl⟩ := npDivArr_eq_ok.mp hm
  obtain ⟨hd0, hg⟩ := arange_towards hl
  have hD : D ≠ 0 := by rintro rfl; simp at hd0
  have habs : |(if y ≥ x then |D| else -(|D|))| = |D| := by split_ifs <;> simp
  rw [habs] at hg
  obtain ⟨hf0, rfl⟩ := npDivArr_eq_ok.mp hf
  have hff : (List.map (fun x => c' / x) l).map (fun x => c' / x) = l := by
    rw [List.map_map]
    conv_rhs => rw [← List.map_id l]
    apply List.map_congr_left
    intro q hq
    have : q ≠ 0 := by rintro rfl; exact hl0 hq
    simp only [Function.comp, id]
    field_simp
  rw [hff] at he
  have hlen := hg.1
  subst he
  simp only [List.length_map]
  refine ⟨hD, by rw [hlen]; exact hg, hlen, towards_between hD hg, trivial, IsGridL.headD hg (by omega), ?_⟩
  intro i q hq
  refine ⟨c' / q, by simp [hq], ?_⟩
  have : q ≠ 0 := by rintro rfl; exact hl0 (List.mem_of_getElem? hq)
  field_simp

/-- Frequencies 4, 3, 2 from bounds 4 and 1 with a step of 1. -/
example : ∃ e, Env.init (defaultArgs.update
    { df := some (.given 1), f0 := some (.given 4), f1 := some (.given 1) }) = .ok e ∧ e.f = [4, 3, 2] := by
  match h : Env.init (defaultArgs.update
    { df := some (.given 1), f0 := some (.given 4), f1 := some (.given 1) }) with
  | .ok e =>
    refine ⟨e, rfl, ?_⟩
    have : (match Env.init (defaultArgs.update
      { df := some (.given 1), f0 := some (.given 4), f1 := some (.given 1) }) with
      | .ok e => e.f | .error _ => []) = [4, 3, 2] := by decide +kernel
    rw [h] at this
    exact this
  | .error e =>
    exfalso
    have : (Env.init (defaultArgs.update
      { df := some (.given 1), f0 := some (.given 4), f1 := some (.given 1) })).isOk = true := by
      decide +kernel
    rw [h] at this; cases this

/-! ## C11 -/

/-- C11: an environment that can be built in the time domain can be built in the frequency domain;
it then has the first time sample only, no time scales, and the same wavelengths. -/
theorem C11_freqdomain (a : Args) (e : Env)
    (h : Env.init { a with freqdomain := false } = .ok e) :
    ∃ e', Env.init { a with freqdomain := true } = .ok e' ∧ e'.t = e.t.take 1 ∧ e'.num_t = 1 ∧
      e'.t0 = e.t0 ∧ e'.dt = none ∧ e'.samplerate = none ∧ e'.t1 = none ∧ e'.bitrate = none ∧
      e'.bitlength = none ∧ e'.wl = e.wl ∧ e'.f = e.f ∧ e'.wl0 = e.wl0 ∧ e'.wl1 = e.wl1 ∧
      e'.dwl = e.dwl ∧ e'.num_wl = e.num_wl ∧ e'.c = e.c ∧ e'.freqdomain = true := by
  obtain ⟨c, br0, t0l, wl0l, t, wl, f, sr, bl, hc, hchk, hbr, ht, htt, htne, hwl, hww, hwne, hsr, hbl, hf, he⟩ :=
    init_ok h
  simp only [Bool.false_eq_true, if_false] at htt he hbl
  subst htt hww
  have hlen : (t.take 1).length = 1 := by
    have : 0 < t.length := List.length_pos_iff.mpr htne
    simp; omega
  have hstep : firstStep (t.take 1) = none := IsGridL.firstStep_none (by omega)
  have := init_mk (a := { a with freqdomain := true }) (c := c) (br0 := br0) (t0l := t) (wl := wl)
    (f := f) (sr := none) (bl := none) hc (by exact hchk) (by exact hbr) (by exact ht) htne
    (by exact hwl) hwne (by simp [hstep, recipOpt]) (by simp [recipOpt]) hf
  refine ⟨_, this, ?_⟩
  subst he
  cases t with
  | nil => simp at htne
  | cons x l => simp [mkEnv, timeEnd, firstStep]

/-- C11: every frequency-domain environment has a single time sample. -/
theorem C11_single_sample (a : Args) (e : Env) (h : Env.init a = .ok e) (hfd : e.freqdomain = true) :
    e.num_t = 1 ∧ e.t = [e.t0] ∧ e.dt = none ∧ e.samplerate = none ∧ e.t1 = none ∧
      e.bitrate = none ∧ e.bitlength = none := by
  obtain ⟨c, br0, t0l, wl0l, t, wl, f, sr, bl, hc, hchk, hbr, ht, htt, htne, hwl, hww, hwne, hsr, hbl, hf, he⟩ :=
    init_ok h
  have hfd' : a.freqdomain = true := by rw [he] at hfd; exact hfd
  simp only [hfd', if_true] at htt he hbl
  subst htt
  cases hbl
  cases t0l with
  | nil => simp at htne
  | cons x l =>
    simp only [List.take_succ_cons, List.take_zero, firstStep, recipOpt] at hsr he
    cases hsr
    subst he
    simp [timeEnd, firstStep]

example : (Env.init { defaultArgs with freqdomain := false }).isOk = true := by decide +kernel

/-! ## Examples of use -/

theorem made {o : Overrides} (h : okAnd (Env.make o) (fun _ => true) = true) : ∃ e, Env.make o = .ok e := by
  obtain ⟨e, he, -⟩ := okAnd_iff.mp h
  exact ⟨e, he⟩

example : Env.init { defaultArgs with t1 := .given 1, num_t := .given 3 } = .error .valueError :=
  C01_conflict_rejected _ 299792458 (.inl rfl) ⟨(.t1, .num_t), by decide, ⟨_, rfl⟩, ⟨_, rfl⟩⟩

example : Env.init { defaultArgs with dt := .given (-1) } = .error .valueError :=
  C01_bad_times_rejected _ 299792458 (.inl rfl) (by simp [defaultArgs]) (.inl ⟨-1, .inr rfl, by norm_num⟩)

/-- The interval is empty, and the theorem names that as a reason. -/
example : ∃ (a : Args), Env.init a = .error .valueError ∧ ¬ Supplied a .num_t ∧
    (Conflict a ∨ BadTimes a ∨ HasValue a.t .high ∨ HasValue a.wl .high ∨ HasValue a.f .high) := by
  have h : Env.init { defaultArgs with t0 := .given 2, t1 := .given 1 } = .error .valueError :=
    C01_bad_times_rejected _ 299792458 (.inl rfl) (by simp [defaultArgs])
      (.inr ⟨2, 1, .inr rfl, .inr rfl, by norm_num⟩)
  refine ⟨_, h, (by rintro ⟨n, hn⟩; cases hn), ?_⟩
  rcases C01_only_these _ h with h | h | h | h | h | ⟨n, h, -⟩
  · exact .inl h
  · exact .inr (.inl h)
  · exact .inr (.inr (.inl h))
  · exact .inr (.inr (.inr (.inl h)))
  · exact .inr (.inr (.inr (.inr h)))
  · cases h

example : ∃ e, Env.make { num_t := some (.given 5), samplerate := some (.given 4) } = .ok e ∧ IsGrid e.t 0 (1 / 4) 5 := by
  obtain ⟨e, he⟩ := made (o := { num_t := some (.given 5), samplerate := some (.given 4) }) (by decide +kernel)
  obtain ⟨h1, -, h2⟩ := C02_num_t_grid _ e 5 (1 / 4) 0 he rfl (.inl ⟨4, rfl, by norm_num⟩) (.inl rfl) rfl
  have h3 : e.num_t = 5 := by exact_mod_cast h1
  rw [h3] at h2
  exact ⟨e, he, h2⟩

example : ∃ e, Env.make { dt := some (.given (1 / 10 ^ 14)), num_t := some (.given 100), t0 := some (.given 0) } = .ok e ∧
    e.num_t = 100 ∧ IsGrid e.t 0 (1 / 10 ^ 14) 100 :=
  C02_accepted (1 / 10 ^ 14) 0 100 (by norm_num) (by norm_num) (by norm_num)

/-- A grid that starts a nanosecond after zero is refused, one that starts half a picosecond after zero is not. -/
example : (¬ ∃ e, Env.make { dt := some (.given (1 / 10 ^ 14)), num_t := some (.given 100), t0 := some (.given (1 / 10 ^ 9)) } = .ok e) ∧
    ∃ e, Env.make { dt := some (.given (1 / 10 ^ 14)), num_t := some (.given 100), t0 := some (.given (5 / 10 ^ 13)) } = .ok e :=
  ⟨fun h => absurd ((C60_partial (1 / 10 ^ 14) (1 / 10 ^ 9) 100 (by norm_num) (by norm_num)).mp h) (by norm_num),
    (C60_partial (1 / 10 ^ 14) (5 / 10 ^ 13) 100 (by norm_num) (by norm_num)).mpr (by norm_num)⟩

/-- From 1 to 11/4 in steps of 1/2: three samples, the last at 2. -/
example : ∃ e, Env.make { dt := some (.given (1 / 2)), t0 := some (.given 1), t1 := some (.given (11 / 4)) } = .ok e ∧
    e.num_t = 3 ∧ IsGrid e.t 1 (1 / 2) 3 := by
  obtain ⟨e, he⟩ := C03_accepted (1 / 2) 1 (11 / 4) (by norm_num) (by norm_num)
  obtain ⟨-, h1, h2, -⟩ := C03_interval_grid _ e (1 / 2) 1 (11 / 4) he (by rintro ⟨v, hv⟩; cases hv)
    (by rintro ⟨v, hv⟩; cases hv) (.inl ⟨_, rfl⟩) (.inr ⟨(by rintro ⟨v, hv⟩; cases hv), .inr rfl⟩) (.inr rfl) (.inr rfl) rfl
  have h3 : ⌊((11 / 4 : ℚ) - 1) / |1 / 2|⌋₊ = 3 := by
    rw [Nat.floor_eq_iff (by norm_num)]
    norm_num
  rw [h3] at h2
  have h4 : e.num_t = 3 := h2
  rw [h4, abs_of_pos (by norm_num : (0 : ℚ) < 1 / 2)] at h1
  exact ⟨e, he, h4, h1⟩

example : ∃ e, Env.make bitArgs = .ok e ∧ e.num_t = e.t.length ∧ e.t[0]? = some e.t0 ∧
    ∃ b, e.bitrate = some b ∧ b * 2 = 1 := by
  obtain ⟨e, he⟩ := made (o := bitArgs) (by decide +kernel)
  obtain ⟨h1, -, h2, -⟩ := C04_time_attributes _ e he
  exact ⟨e, he, h1, h2, ((C04_bit_arguments _ e 2 he rfl).1 rfl).2⟩

example : ∃ e d, Env.make { dt := some (.given 1), num_t := some (.given 3), t0 := some (.given 0) } = .ok e ∧ e.dt = some d ∧
    e.t1 = some (e.t0 + e.num_t * d) := by
  obtain ⟨e, he, h1, h2⟩ := C02_accepted 1 0 3 (by norm_num) (by norm_num) (by norm_num)
  obtain ⟨d, h3⟩ := C04_uniform_end _ e he ⟨0, 1, by rw [h2.1]; exact h2⟩ (by omega)
  exact ⟨e, d, he, h3⟩

/-- A thousand wavelengths between 1500 and 1600 nanometres: the grid, whose last point is a step short of 1600. -/
example : ∃ e, Env.make { wl0 := some (.given (15 / 10 ^ 7)), wl1 := some (.given (16 / 10 ^ 7)), num_wl := some (.given 1000) } =
    .ok e ∧ IsGrid e.wl (15 / 10 ^ 7) (1 / 10 ^ 10) e.num_wl ∧ (e.num_wl : ℤ) = 1000 := by
  obtain ⟨e, he⟩ := C05_accepted (15 / 10 ^ 7) (16 / 10 ^ 7) 1000 (by norm_num) (by norm_num) (by norm_num) (by norm_num)
  obtain ⟨-, h1, h2, -⟩ := C05_num_wl_grid _ e 299792458 1000 (15 / 10 ^ 7) (16 / 10 ^ 7) he rfl (.inl rfl) (by norm_num)
    (.inr ⟨(by rintro ⟨v, hv⟩; cases hv), .inr rfl⟩) (.inr ⟨(by rintro ⟨v, hv⟩; cases hv), .inr rfl⟩)
  norm_num at h1
  exact ⟨e, he, by norm_num; exact h1, h2⟩

/-- Wavelengths that come down from 3 to 2 in steps of 1/2. -/
example : ∃ e, Env.make { dwl := some (.given (1 / 2)), wl0 := some (.given 3), wl1 := some (.given 2) } = .ok e ∧
    IsGrid e.wl 3 (-(1 / 2)) e.num_wl ∧ ∀ w ∈ e.wl, 2 < w := by
  obtain ⟨e, he⟩ := made (o := { dwl := some (.given (1 / 2)), wl0 := some (.given 3), wl1 := some (.given 2) }) (by decide +kernel)
  obtain ⟨-, h1, -, h2, -⟩ := C05_dwl_grid _ e 299792458 (1 / 2) 3 2 he rfl (.inl rfl)
    (.inr ⟨(by rintro ⟨v, hv⟩; cases hv), .inr rfl⟩) (.inr ⟨(by rintro ⟨v, hv⟩; cases hv), .inr rfl⟩)
  norm_num at h1
  refine ⟨e, he, by norm_num; exact h1, fun w hw => ?_⟩
  rcases h2 w hw with h | ⟨h, h'⟩ | ⟨h, -⟩ <;> linarith

example : Env.make { num_f := some (.given 1000), wl0 := some (.given (15 / 10 ^ 7)), wl1 := some (.given (16 / 10 ^ 7)) } =
    .error .zeroDivision := C06_always_fails _ _ _

example : ∃ e, Env.make { num_f := some (.given 3), f0 := some (.given 1), f1 := some (.given 4) } = .ok e ∧
    IsGrid e.f 1 1 e.num_f ∧ (e.num_f : ℤ) = 3 := by
  obtain ⟨e, he⟩ := made (o := { num_f := some (.given 3), f0 := some (.given 1), f1 := some (.given 4) }) (by decide +kernel)
  obtain ⟨h1, h2, -⟩ := C06_freq_bounds_partial _ e 299792458 3 1 4 he (.inl rfl) (by norm_num) rfl (by norm_num) (.inr rfl)
    (.inr rfl) (by rintro ⟨v, hv⟩; cases hv) (by rintro ⟨v, hv⟩; cases hv)
  norm_num at h1
  exact ⟨e, he, h1, h2⟩

example : ∃ e, Env.make { df := some (.given 1), f0 := some (.given 4), f1 := some (.given 1) } = .ok e ∧
    IsGrid e.f 4 (-1) e.num_f ∧ e.num_wl = e.num_f := by
  obtain ⟨e, he⟩ := made (o := { df := some (.given 1), f0 := some (.given 4), f1 := some (.given 1) }) (by decide +kernel)
  obtain ⟨-, h1, -, -, h2, -⟩ := C06_df_partial _ e 299792458 1 4 1 he (.inl rfl) (by norm_num) rfl (.inr rfl)
    (.inr rfl) (by rintro ⟨v, hv⟩; cases hv) (by rintro ⟨v, hv⟩; cases hv)
  norm_num at h1
  exact ⟨e, he, h1, h2⟩

example : ∃ e, Env.init { (defaultArgs.update bitArgs) with freqdomain := true } = .ok e ∧ e.num_t = 1 ∧ e.t = [e.t0] ∧
    e.bitrate = none := by
  obtain ⟨e, he⟩ := made (o := bitArgs) (by decide +kernel)
  obtain ⟨e', he', -, -, -, -, -, -, -, -, -, -, -, -, -, -, -, h⟩ := C11_freqdomain (defaultArgs.update bitArgs) e he
  obtain ⟨h1, h2, -, -, -, h3, -⟩ := C11_single_sample _ e' he' h
  exact ⟨e', he', h1, h2, h3⟩

end PT
