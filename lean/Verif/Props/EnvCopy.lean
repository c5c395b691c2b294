import Verif.Props.EnvConstruct

/-!
# Copying and comparing environments: C07, C12
-/

namespace PT
open Spec

/-! ## C07 -/

/-- The environment without the attributes whose names begin with an underscore. -/
def Env.published (e : Env) : Env := { e with extras := e.extras.filter fun kv => decide (kv.1.head? ≠ some '_') }

/-- C07 full statement: every environment can be copied and the copy has the same public
attributes. -/
def C07_statement : Prop := ∀ (a : Args) (e : Env), Env.init a = .ok e → e.copy {} = .ok e.published

/-- The start of the environment's time array is not later than its nominal end and the step is not
negative (for a single sample the nominal end is the constructor's default `t1 = 1e-12`). -/
def Copyable (e : Env) : Prop :=
  (e.t1 = none → e.t0 ≤ 1 / 10 ^ 12) ∧ (∀ d, e.dt = some d → 0 ≤ d) ∧ (∀ y, e.t1 = some y → e.t0 ≤ y)

theorem merge_nil (l : List (List Char × ℚ)) : mergeExtras l [] = l := by
  simp [mergeExtras]

theorem update_empty (a : Args) : a.update {} = a := by
  unfold Args.update
  simp only [merge_nil, Option.getD_none]

theorem public_eq (e : Env) : publicExtras e.extras = e.published.extras := by
  unfold publicExtras Env.published
  congr 1
  funext kv
  cases h : kv.1.head? == some '_' <;> simp_all

theorem toArgs_time_default (e : Env) (o : Overrides)
    (h : o.dt = none ∧ o.samplerate = none ∧ o.num_t = none ∧ o.t0 = none ∧ o.t1 = none ∧ o.t = none) :
    timeArr (e.toArgs.update o) = .ok (some e.t) := by
  obtain ⟨h1, h2, h3, h4, h5, h6⟩ := h
  rw [timeArr_array]
  · simp [Args.update, Env.toArgs, h6, arrOf]
  · right
    have hd : ∀ (x : Option ℚ) (y : ℚ), ¬ ∃ v, asDefault id x (.dflt y) = .given v := by
      intro x y; cases x <;> simp [asDefault]
    simp [Supplied, Args.update, Env.toArgs, h1, h2, h3, h4, h5]
    have a1 := hd e.dt (1 / 10 ^ 14)
    have a2 := hd e.samplerate (10 ^ 14)
    have a3 := hd e.t1 (1 / 10 ^ 12)
    simp only [not_exists] at a1 a2 a3
    exact ⟨a1, a2, a3⟩

theorem toArgs_wl_default (e : Env) (o : Overrides) (c : ℚ)
    (h : o.wl = none ∧ o.f = none ∧ o.dwl = none ∧ o.df = none ∧ o.num_wl = none ∧ o.num_f = none ∧
      o.wl0 = none ∧ o.f0 = none ∧ o.wl1 = none ∧ o.f1 = none) :
    wlArr c (e.toArgs.update o) = .ok (some e.wl) := by
  obtain ⟨h1, h2, h3, h4, h5, h6, h7, h8, h9, h10⟩ := h
  have hd : ∀ (x : Option ℚ) (y : ℚ), (asDefault id x (.dflt y)).isDefault = true := by
    intro x y; cases x <;> simp [asDefault, Arg.isDefault]
  unfold wlArr
  rw [if_pos]
  · simp [wlArgOf, Args.update, Env.toArgs, h1, h2, Arg.isDefault, arrOf]
  · simp [Args.update, Env.toArgs, h1, h2, h3, h4, h5, h6, h7, h8, h9, h10, countGiven,
      defaultArgs, hd]

theorem toArgs_bitrate_default (e : Env) (o : Overrides) (h : o.bitrate = none ∧ o.bitlength = none) :
    bitrateOf (e.toArgs.update o) = .ok e.bitrate := by
  obtain ⟨h1, h2⟩ := h
  unfold bitrateOf
  have hd : (asDefault id e.bitlength Arg.none).isDefault = true := by
    cases e.bitlength <;> simp [asDefault, Arg.isDefault]
  simp only [Args.update, Env.toArgs, h1, h2, defaultArgs, hd, Option.getD_none, Bool.not_true,
    Bool.false_eq_true, if_false]
  cases hb : e.bitrate <;> simp [asDefault]

/-- The attributes of any constructed environment determine it. -/
theorem env_shape {a : Args} {e : Env} (h : Env.init a = .ok e) :
    e.t ≠ [] ∧ e.wl ≠ [] ∧ e.t0 = e.t.headD 0 ∧ e.t1 = timeEnd e.t ∧ e.num_t = e.t.length ∧
    e.dt = firstStep e.t ∧ recipOpt e.dt = .ok e.samplerate ∧ recipOpt e.bitrate = .ok e.bitlength ∧
    e.wl0 = e.wl.headD 0 ∧ e.wl1 = gridEnd e.wl ∧ e.num_wl = e.wl.length ∧ e.dwl = firstStep e.wl ∧
    npDivArr e.c e.wl = .ok e.f ∧ e.f0 = e.f.headD 0 ∧ e.f1 = gridEnd e.f ∧ e.num_f = e.f.length ∧
    e.df = firstStep e.f ∧ (e.freqdomain = true → e.t.take 1 = e.t ∧ e.bitrate = none) := by
  obtain ⟨c, br0, t0l, wl0l, t, wl, f, sr, bl, hc, hchk, hbr, ht, htt, htne, hwl, hww, hwne, hsr, hbl, hf, he⟩ :=
    init_ok h
  subst he
  simp only
  refine ⟨htne, hwne, trivial, trivial, trivial, trivial, hsr, hbl, trivial, trivial, trivial,
    trivial, hf, trivial, trivial, trivial, trivial, ?_⟩
  intro hfd
  simp only [hfd, if_true] at htt ⊢
  subst htt
  simp

theorem toArgs_no_conflict (e : Env) : ¬ Conflict e.toArgs := by
  rw [← exclGuard_iff]
  have hd : ∀ (x : Option ℚ) (y : ℚ), (asDefault id x (.dflt y)).isDefault = true := by
    intro x y; cases x <;> simp [asDefault, Arg.isDefault]
  have hn : ∀ (x : Option ℚ), (asDefault id x Arg.none).isDefault = true := by
    intro x; cases x <;> simp [asDefault, Arg.isDefault]
  simp [exclGuard, countGiven, Env.toArgs, defaultArgs, hd, hn]

theorem toArgs_signs (e : Env) (ht : e.t1 = none ↔ e.dt = none) :
    (∃ d x y, HasValue e.toArgs.dt d ∧ HasValue e.toArgs.t0 x ∧ HasValue e.toArgs.t1 y ∧ 0 ≤ d ∧ x ≤ y)
      ↔ Copyable e := by
  unfold Copyable
  cases h1 : e.dt <;> cases h2 : e.t1 <;>
    simp_all [HasValue, Env.toArgs, asDefault, defaultArgs]

/-- C07: `copy()` succeeds and is exact precisely for the copyable environments; otherwise it raises
`ValueError`. -/
theorem C07_copy_exact_iff (a : Args) (e : Env) (h : Env.init a = .ok e) :
    (Copyable e → e.copy {} = .ok e.published) ∧ (¬ Copyable e → e.copy {} = .error .valueError) := by
  obtain ⟨s1, s2, s3, s4, s5, s6, s7, s8, s9, s10, s11, s12, s13, s14, s15, s16, s17, s18⟩ := env_shape h
  have ht : e.t1 = none ↔ e.dt = none := by rw [s4, s6]; simp [timeEnd]
  have hsg := toArgs_signs e ht
  constructor
  · intro hcp
    have hchk : checkArgs e.toArgs = .ok () := checkArgs_ok.mpr ⟨toArgs_no_conflict e, hsg.mpr hcp⟩
    have hfdt : (if e.toArgs.freqdomain then e.t.take 1 else e.t) = e.t := by
      show (if e.freqdomain = true then _ else _) = _
      split
      · rename_i hfd; exact (s18 hfd).1
      · rfl
    have hfdb : (if e.toArgs.freqdomain then none else e.bitrate) = e.bitrate := by
      show (if e.freqdomain = true then _ else _) = _
      split
      · rename_i hfd; exact (s18 hfd).2.symm
      · rfl
    have hm := init_mk (a := e.toArgs) (c := e.c) (br0 := e.bitrate) (t0l := e.t) (wl := e.wl)
      (f := e.f) (sr := e.samplerate) (bl := e.bitlength) (.inl rfl) hchk
      (toArgs_bitrate_default e {} ⟨rfl, rfl⟩)
      (toArgs_time_default e {} ⟨rfl, rfl, rfl, rfl, rfl, rfl⟩) s1
      (toArgs_wl_default e {} e.c ⟨rfl, rfl, rfl, rfl, rfl, rfl, rfl, rfl, rfl, rfl⟩) s2
      (by rw [hfdt, ← s6]; exact s7) (by rw [hfdb]; exact s8) s13
    rw [Env.copy, update_empty, hm, hfdt, hfdb]
    congr 1
    unfold mkEnv
    rw [← s3, ← s4, ← s5, ← s6, ← s9, ← s10, ← s11, ← s12, ← s14, ← s15, ← s16, ← s17,
      show e.toArgs.extras = e.published.extras from public_eq e]
    rfl
  · intro hcp
    have hchk : checkArgs e.toArgs = .error .valueError := by
      rw [checkArgs_eq, if_neg (mt (exclGuard_iff _).mp (toArgs_no_conflict e))]
      have hno := mt hsg.mp hcp
      have h1 : ∃ d, e.toArgs.dt.val = .ok d := by
        cases h1 : e.dt <;> simp [Env.toArgs, asDefault, h1, defaultArgs]
      have h2 : ∃ d, e.toArgs.t1.val = .ok d := by
        cases h1 : e.t1 <;> simp [Env.toArgs, asDefault, h1, defaultArgs]
      obtain ⟨d, hd⟩ := h1
      obtain ⟨y, hy⟩ := h2
      have hx : e.toArgs.t0.val = .ok e.t0 := rfl
      unfold signChecks
      simp only [hd, hy, hx, ok_bind]
      split_ifs with i1 i2
      · rfl
      · rfl
      · exact absurd ⟨d, e.t0, y, val_eq_ok.mp hd, val_eq_ok.mp hx, val_eq_ok.mp hy,
          not_lt.mp i1, not_lt.mp i2⟩ hno
    rw [Env.copy, update_empty]
    unfold Env.init
    have hc : e.toArgs.c.val = .ok e.c := rfl
    simp [hc, hchk]

/-- C07 is violated: a single-sample environment starting after 1e-12 s cannot be copied. -/
theorem C07_violation : ¬ C07_statement := by
  intro h
  have hk : okAnd (Env.make { t := some (.given (.scalar 1)) }) (fun e => !okAnd (e.copy {}) fun _ => true)
      = true := by decide +kernel
  obtain ⟨e, he, hk⟩ := okAnd_iff.mp hk
  rw [h _ e he] at hk
  cases hk

/-- C07, what holds: environments with a non-negative step and at least two samples on a uniform
grid (everything built from `dt`/`samplerate`/`num_t`/`t0`/`t1`), and single-sample ones starting at
or before 1e-12 s, are copied exactly.  Missing: the others, see `C07_copy_exact_iff`. -/
theorem C07_copy_partial (a : Args) (e : Env) (h : Env.init a = .ok e) (hu : Uniform e.t)
    (h1 : e.num_t = 1 → e.t0 ≤ 1 / 10 ^ 12) (h2 : ∀ d, e.dt = some d → 0 ≤ d) :
    e.copy {} = .ok e.published := by
  obtain ⟨s1, s2, s3, s4, s5, s6, s7, s8, s9, s10, s11, s12, s13, s14, s15, s16, s17, s18⟩ := env_shape h
  apply (C07_copy_exact_iff a e h).1
  have hpos : 0 < e.t.length := List.length_pos_iff.mpr s1
  refine ⟨?_, h2, ?_⟩
  · intro hn
    apply h1
    by_contra hc
    obtain ⟨s, d, hg⟩ := hu
    rw [s4, IsGridL.timeEnd_eq hg (by omega)] at hn
    cases hn
  · intro y hy
    obtain ⟨s, d, hg⟩ := hu
    have hl : 2 ≤ e.t.length := by
      by_contra hc
      rw [s4] at hy
      simp [timeEnd, IsGridL.firstStep_none (by omega : e.t.length < 2)] at hy
    rw [s4, IsGridL.timeEnd_eq hg hl] at hy
    cases hy
    have hd := h2 d (by rw [s6, IsGridL.firstStep_eq hg hl])
    rw [s3, IsGridL.headD hg (by omega)]
    have : 0 ≤ (e.t.length : ℚ) * d := by positivity
    linarith

example : ∃ e, Env.make { num_t := some (.given 2), dt := some (.given 3) } = .ok e ∧
    e.copy {} = .ok e := by
  have hk : okAnd (Env.make { num_t := some (.given 2), dt := some (.given 3) })
      (fun e => okAnd (e.copy {}) fun e' => decide (e' = e)) = true := by decide +kernel
  obtain ⟨e, he, hk⟩ := okAnd_iff.mp hk
  obtain ⟨e', he', hk⟩ := okAnd_iff.mp hk
  simp only [decide_eq_true_eq] at hk
  subst hk
  exact ⟨_, he, he'⟩

/-- C07: overriding only wavelength arguments changes nothing about the time grid, the bit rate, the
domain, the gradient mode, the name or the extra attributes. -/
theorem C07_override_wavelengths (a : Args) (e e' : Env) (o : Overrides) (h : Env.init a = .ok e)
    (ho : o.dt = none ∧ o.samplerate = none ∧ o.num_t = none ∧ o.t0 = none ∧ o.t1 = none ∧ o.t = none)
    (hb : o.bitrate = none ∧ o.bitlength = none)
    (hm : o.freqdomain = none ∧ o.grad = none ∧ o.name = none) (hx : o.extras = [])
    (h' : e.copy o = .ok e') :
    e'.t = e.t ∧ e'.t0 = e.t0 ∧ e'.t1 = e.t1 ∧ e'.num_t = e.num_t ∧ e'.dt = e.dt ∧
      e'.samplerate = e.samplerate ∧ e'.bitrate = e.bitrate ∧ e'.bitlength = e.bitlength ∧
      e'.freqdomain = e.freqdomain ∧ e'.grad = e.grad ∧ e'.name = e.name ∧ e'.extras = e.published.extras := by
  obtain ⟨s1, s2, s3, s4, s5, s6, s7, s8, s9, s10, s11, s12, s13, s14, s15, s16, s17, s18⟩ := env_shape h
  obtain ⟨c, br0, t0l, wl0l, t, wl, f, sr, bl, hc, hchk, hbr, ht, htt, htne, hwl, hww, hwne, hsr, hbl, hf, he⟩ :=
    init_ok h'
  rw [toArgs_time_default e o ho] at ht
  cases ht
  rw [toArgs_bitrate_default e o hb] at hbr
  cases hbr
  have hfd : (e.toArgs.update o).freqdomain = e.freqdomain := by simp [Args.update, hm.1, Env.toArgs]
  rw [hfd] at htt hbl he
  have htt' : t = e.t := by
    rw [htt]; split
    · rename_i q; exact (s18 q).1
    · rfl
  have hbb : (if e.freqdomain = true then none else e.bitrate) = e.bitrate := by
    split
    · rename_i q; exact (s18 q).2.symm
    · rfl
  rw [htt', ← s6] at hsr
  rw [hsr] at s7
  cases s7
  rw [hbb] at hbl he
  rw [hbl] at s8
  cases s8
  subst he
  simp only [htt', s3, s4, s5, s6, true_and]
  simp [Args.update, hm.2.1, hm.2.2, Env.toArgs, hx, merge_nil, public_eq]

/-- C07: overriding only time arguments (and bit rate, domain, gradient mode, name) changes nothing
about the wavelengths and frequencies. -/
theorem C07_override_time (a : Args) (e e' : Env) (o : Overrides) (h : Env.init a = .ok e)
    (ho : o.wl = none ∧ o.f = none ∧ o.dwl = none ∧ o.df = none ∧ o.num_wl = none ∧ o.num_f = none ∧
      o.wl0 = none ∧ o.f0 = none ∧ o.wl1 = none ∧ o.f1 = none)
    (hcc : o.c = none) (h' : e.copy o = .ok e') :
    e'.wl = e.wl ∧ e'.wl0 = e.wl0 ∧ e'.wl1 = e.wl1 ∧ e'.num_wl = e.num_wl ∧ e'.dwl = e.dwl ∧
      e'.f = e.f ∧ e'.f0 = e.f0 ∧ e'.f1 = e.f1 ∧ e'.num_f = e.num_f ∧ e'.df = e.df ∧ e'.c = e.c := by
  obtain ⟨s1, s2, s3, s4, s5, s6, s7, s8, s9, s10, s11, s12, s13, s14, s15, s16, s17, s18⟩ := env_shape h
  obtain ⟨c, br0, t0l, wl0l, t, wl, f, sr, bl, hc, hchk, hbr, ht, htt, htne, hwl, hww, hwne, hsr, hbl, hf, he⟩ :=
    init_ok h'
  have hce : c = e.c := by
    simp [Args.update, hcc, Env.toArgs, HasValue] at hc; exact hc.symm
  subst hce
  rw [toArgs_wl_default e o _ ho] at hwl
  cases hwl
  subst hww
  rw [hf] at s13
  cases s13
  subst he
  simp only [s9, s10, s11, s12, s14, s15, s16, s17, and_self]

/-- C07: `copy(num_t=n)` keeps start and step and takes `n` samples. -/
theorem C07_override_num_t (a : Args) (e e' : Env) (n : ℤ) (d : ℚ) (h : Env.init a = .ok e)
    (hd : e.dt = some d) (hfd : e.freqdomain = false)
    (h' : e.copy { num_t := some (.given n) } = .ok e') :
    (e'.num_t : ℤ) = n ∧ 1 ≤ n ∧ IsGrid e'.t e.t0 d e'.num_t := by
  obtain ⟨c, br0, t0l, wl0l, t, wl, f, sr, bl, hc, hchk, hbr, ht, htt, htne, hwl, hww, hwne, hsr, hbl, hf, he⟩ :=
    init_ok h'
  have hfd' : (e.toArgs.update { num_t := some (.given n) }).freqdomain = false := hfd
  rw [hfd'] at htt
  simp only [Bool.false_eq_true, if_false] at htt
  subst htt
  have hsd : (asDefault id e.samplerate (Arg.dflt (10 ^ 14))).isDefault = true := by
    cases e.samplerate <;> simp [asDefault, Arg.isDefault]
  rw [timeArr_grid (by rintro ⟨v, hv⟩; simp [Args.update, Env.toArgs] at hv)
    (.inr (.inr (.inl ⟨n, rfl⟩)))] at ht
  simp only [stepArg, Args.update, Env.toArgs, Option.getD_none, Option.getD_some, defaultArgs, hsd,
    Bool.not_true, Bool.false_eq_true, if_false, hd] at ht
  simp only [asDefault, id, val_dflt, ok_bind, isDefault_given, Bool.not_false, if_true, val_given, bind_eq_ok, pure_eq_ok] at ht
  obtain ⟨l, hl, hl2⟩ := ht
  cases hl2
  obtain ⟨hn0, hg⟩ := linspaceOpen_ok hl
  have hpos : 0 < t.length := List.length_pos_iff.mpr htne
  have hlen := hg.1
  have hq : (e.t0 + (n : ℚ) * d - e.t0) / (n : ℚ) = d := by
    have : (n : ℚ) ≠ 0 := by exact_mod_cast (by omega : n ≠ 0)
    field_simp; ring
  rw [hq] at hg
  subst he
  exact ⟨by simp only; omega, by omega, by simp only; rw [hlen]; exact hg⟩

/-! ## C12 -/

/-- C12 full statement: environments that compare equal have equal grids. -/
def C12_statement : Prop :=
  ∀ (a₁ a₂ : Args) (e₁ e₂ : Env), Env.init a₁ = .ok e₁ → Env.init a₂ = .ok e₂ →
    (e₁.pyEq e₂ = true ↔ e₁.published = e₂.published)

/-- C12 is violated: two environments with different (non-uniform) time arrays compare equal. -/
theorem C12_violation : ¬ C12_statement := by
  intro h
  have hk : okAnd (Env.make { t := some (.given (.vec [0, 1, 5, 7])) }) (fun e₁ =>
      okAnd (Env.make { t := some (.given (.vec [0, 1, 2, 7])) }) fun e₂ =>
        e₁.pyEq e₂ && !decide (e₁.t = e₂.t)) = true := by decide +kernel
  obtain ⟨e₁, h1, hk⟩ := okAnd_iff.mp hk
  obtain ⟨e₂, h2, hk⟩ := okAnd_iff.mp hk
  simp only [Bool.and_eq_true, Bool.not_eq_true', decide_eq_false_iff_not] at hk
  exact hk.2 (congrArg Env.t ((h _ _ e₁ e₂ h1 h2).mp hk.1) : e₁.published.t = e₂.published.t)

/-- C12, what holds: for uniform time and wavelength grids, `==` is equality of all public
attributes, including the arrays.  Missing: non-uniform grids. -/
theorem C12_eq_partial (a₁ a₂ : Args) (e₁ e₂ : Env) (h₁ : Env.init a₁ = .ok e₁)
    (h₂ : Env.init a₂ = .ok e₂) (u₁ : Uniform e₁.t) (u₂ : Uniform e₂.t) (w₁ : Uniform e₁.wl)
    (w₂ : Uniform e₂.wl) : e₁.pyEq e₂ = true ↔ e₁.published = e₂.published := by
  obtain ⟨s1, s2, s3, s4, s5, s6, s7, s8, s9, s10, s11, s12, s13, s14, s15, s16, s17, s18⟩ := env_shape h₁
  obtain ⟨r1, r2, r3, r4, r5, r6, r7, r8, r9, r10, r11, r12, r13, r14, r15, r16, r17, r18⟩ := env_shape h₂
  constructor
  · intro h
    simp only [Env.pyEq, decide_eq_true_eq] at h
    obtain ⟨q1, q2, q3, q4, q5, q6, q7, q8, q9, q10, q11, q12, q13, q14, q15, q16, q17, q18, q19, q20⟩ := h
    have huni : ∀ l l' : List ℚ, l ≠ [] → Uniform l → Uniform l' → l.headD 0 = l'.headD 0 →
        l.length = l'.length → firstStep l = firstStep l' → l = l' := by
      rintro l l' hne ⟨s, d, hg⟩ ⟨s', d', hg'⟩ hh hl hf
      have hpos : 0 < l.length := List.length_pos_iff.mpr hne
      rw [IsGridL.headD hg (by omega), IsGridL.headD hg' (by omega)] at hh
      subst hh
      by_cases h2 : 2 ≤ l.length
      · rw [IsGridL.firstStep_eq hg h2, IsGridL.firstStep_eq hg' (by omega)] at hf
        cases hf
        rw [← hl] at hg'
        exact isGrid_ext hg hg'
      · have hl1 : l.length = 1 := by omega
        rw [← hl] at hg'
        rw [hl1] at hg hg'
        refine isGrid_ext (s := s) (d := 0) ⟨hg.1, fun i hi => ?_⟩ ⟨hg'.1, fun i hi => ?_⟩
        · have : i = 0 := by omega
          subst this; rw [hg.2 0 hi]; simp
        · have : i = 0 := by omega
          subst this; rw [hg'.2 0 hi]; simp
    have ht : e₁.t = e₂.t := huni _ _ s1 u₁ u₂ (by rw [← s3, ← r3, q2]) (by rw [← s5, ← r5, q4])
      (by rw [← s6, ← r6, q5])
    have hw : e₁.wl = e₂.wl := huni _ _ s2 w₁ w₂ (by rw [← s9, ← r9, q9]) (by rw [← s11, ← r11, q11])
      (by rw [← s12, ← r12, q12])
    have hf : e₁.f = e₂.f := by
      rw [hw, q17] at s13
      rw [s13] at r13
      exact Except.ok.inj r13
    rw [public_eq, public_eq] at q20
    clear h₁ h₂ s1 s2 s3 s4 s5 s6 s7 s8 s9 s10 s11 s12 s13 s14 s15 s16 s17 s18 r1 r2 r3 r4 r5 r6 r7 r8 r9 r10 r11 r12 r13 r14
      r15 r16 r17 r18 u₁ u₂ w₁ w₂ huni
    unfold Env.published at q20 ⊢
    cases e₁; cases e₂
    simp only at q1 q2 q3 q4 q5 q6 q7 q8 q9 q10 q11 q12 q13 q14 q15 q16 q17 q18 q19 q20 ht hw hf
    subst q1 q2 q3 q4 q5 q6 q7 q8 q9 q10 q11 q12 q13 q14 q15 q16 q17 q18 q19 ht hw hf
    simp only [q20]
  · intro h
    have key : ∀ {α : Type} (g : Env → α), g e₁.published = g e₂.published := fun g => congrArg g h
    unfold Env.pyEq
    rw [decide_eq_true_eq, public_eq, public_eq]
    exact ⟨key Env.name, key Env.t0, key Env.t1, key Env.num_t, key Env.dt, key Env.samplerate, key Env.bitrate, key Env.bitlength,
      key Env.wl0, key Env.wl1, key Env.num_wl, key Env.dwl, key Env.f0, key Env.f1, key Env.num_f, key Env.df, key Env.c,
      key Env.freqdomain, key Env.grad, key Env.extras⟩

example : ∃ e, Env.make { num_t := some (.given 1), t0 := some (.given 0) } = .ok e ∧
    Uniform e.t ∧ Uniform e.wl := by
  have hk : okAnd (Env.make { num_t := some (.given 1), t0 := some (.given 0) })
      (fun e => decide (e.t = [0] ∧ e.wl = [155 / 10 ^ 8])) = true := by decide +kernel
  obtain ⟨e, he, hk⟩ := okAnd_iff.mp hk
  have h := of_decide_eq_true hk
  refine ⟨e, he, ⟨0, 1, ?_⟩, ⟨155 / 10 ^ 8, 1, ?_⟩⟩
  · rw [h.1]
    refine ⟨rfl, fun i hi => ?_⟩
    have : i = 0 := by simpa using hi
    subst this; norm_num
  · rw [h.2]
    refine ⟨rfl, fun i hi => ?_⟩
    have : i = 0 := by simpa using hi
    subst this; norm_num

/-! ## Examples of use -/

theorem example_grid (d x : ℚ) (n : ℕ) (hd : 0 < d) (hn : 2 ≤ n) (hx : x ≤ 1 / 10 ^ 12) :
    ∃ e, Env.make { dt := some (.given d), num_t := some (.given n), t0 := some (.given x) } = .ok e ∧
      e.num_t = n ∧ IsGrid e.t x d n ∧ e.dt = some d ∧ e.t0 = x := by
  obtain ⟨e, he, h1, h2⟩ := C02_accepted d x n hd (by omega) hx
  obtain ⟨-, -, h3, -, h4, -⟩ := C04_time_attributes _ e he
  obtain ⟨d', r, y, z, h5, -, -, h6, -⟩ := h4 (by omega)
  have h7 := h2.2 0 (by omega)
  have h8 := h2.2 1 (by omega)
  rw [h3] at h7
  rw [h6] at h8
  simp only [Option.some.injEq, Nat.cast_zero, zero_mul, add_zero, Nat.cast_one, one_mul] at h7 h8
  have h9 : d' = d := by linarith
  exact ⟨e, he, h1, h2, by rw [h5, h9], h7⟩

/-- The grid 0, 3, 6, 9 is copied exactly, and remains so when the number of samples is changed to 7. -/
example : ∃ e, Env.make { dt := some (.given 3), num_t := some (.given 4), t0 := some (.given 0) } = .ok e ∧
    e.copy {} = .ok e.published ∧
    ∀ e', e.copy { num_t := some (.given 7) } = .ok e' → IsGrid e'.t 0 3 7 ∧ e'.wl = e.wl := by
  obtain ⟨e, he, h1, h2, h3, h4⟩ := example_grid 3 0 4 (by norm_num) (by norm_num) (by norm_num)
  refine ⟨e, he, C07_copy_partial _ e he ⟨0, 3, by rw [h2.1]; exact h2⟩ (by omega)
    (fun d hd => by rw [h3] at hd; cases hd; norm_num), fun e' he' => ?_⟩
  have hf : e.freqdomain = false := by
    by_contra h
    have := C11_single_sample _ e he (by simpa using h)
    omega
  obtain ⟨h5, -, h6⟩ := C07_override_num_t _ e e' 7 3 he h3 hf he'
  have h7 : e'.num_t = 7 := by exact_mod_cast h5
  rw [h4, h7] at h6
  exact ⟨h6, (C07_override_time _ e e' _ he ⟨rfl, rfl, rfl, rfl, rfl, rfl, rfl, rfl, rfl, rfl⟩ rfl he').1⟩

/-- The two arms of the copy theorem: a grid that can be copied, and one at a single late time that cannot. -/
example : (∃ e, Env.make { dt := some (.given 3), num_t := some (.given 4), t0 := some (.given 0) } = .ok e ∧
      e.copy {} = .ok e.published) ∧
    ∃ e, Env.make { t := some (.given (.vec [1])) } = .ok e ∧ e.copy {} = .error .valueError := by
  refine ⟨?_, ?_⟩
  · have hk : okAnd (Env.make { dt := some (.given 3), num_t := some (.given 4), t0 := some (.given 0) })
        (fun e => decide (e.t1 = some 12 ∧ e.t0 = 0 ∧ e.dt = some 3)) = true := by decide +kernel
    obtain ⟨e, he, hk⟩ := okAnd_iff.mp hk
    obtain ⟨h1, h2, h3⟩ := of_decide_eq_true hk
    refine ⟨e, he, (C07_copy_exact_iff _ e he).1 ⟨fun h => ?_, fun d hd => ?_, fun y hy => ?_⟩⟩
    · rw [h1] at h
      cases h
    · rw [h3] at hd
      cases hd
      norm_num
    · rw [h1] at hy
      cases hy
      rw [h2]
      norm_num
  · have hk : okAnd (Env.make { t := some (.given (.vec [1])) })
        (fun e => decide (e.t1 = none ∧ e.t0 = 1)) = true := by decide +kernel
    obtain ⟨e, he, hk⟩ := okAnd_iff.mp hk
    obtain ⟨h1, h2⟩ := of_decide_eq_true hk
    refine ⟨e, he, (C07_copy_exact_iff _ e he).2 fun h => ?_⟩
    have := h.1 h1
    rw [h2] at this
    norm_num at this

/-- Changing the wavelength leaves the time grid and the bit rate. -/
example : ∃ e e', Env.make bitArgs = .ok e ∧ e.copy { wl := some (.given (.vec [1, 2])) } = .ok e' ∧ e'.wl = [1, 2] ∧
    e'.t = e.t ∧ e'.bitrate = e.bitrate := by
  have hk : okAnd (Env.make bitArgs) (fun e => okAnd (e.copy { wl := some (.given (.vec [1, 2])) })
      fun e' => decide (e'.wl = [1, 2])) = true := by decide +kernel
  obtain ⟨e, he, hk⟩ := okAnd_iff.mp hk
  obtain ⟨e', he', hk⟩ := okAnd_iff.mp hk
  have h := C07_override_wavelengths _ e e' _ he ⟨rfl, rfl, rfl, rfl, rfl, rfl⟩ ⟨rfl, rfl⟩ ⟨rfl, rfl, rfl⟩ rfl he'
  exact ⟨e, e', he, he', of_decide_eq_true hk, h.1, h.2.2.2.2.2.2.1⟩

/-- Two environments whose step differs by a hair are not equal. -/
example : ∃ e e', Env.make { dt := some (.given 3), num_t := some (.given 4), t0 := some (.given 0) } = .ok e ∧
    Env.make { dt := some (.given (3 + 1 / 10 ^ 30)), num_t := some (.given 4), t0 := some (.given 0) } = .ok e' ∧
    e.pyEq e' = false := by
  have one : ∀ (l : List ℚ) (x : ℚ), l = [x] → Uniform l := by
    rintro l x rfl
    refine ⟨x, 0, rfl, fun i hi => ?_⟩
    have : i = 0 := by simpa using hi
    subst this
    simp
  have h1 : okAnd (Env.make { dt := some (.given 3), num_t := some (.given 4), t0 := some (.given 0) })
      (fun e => decide (e.wl = [155 / 10 ^ 8])) = true := by decide +kernel
  have h2 : okAnd (Env.make { dt := some (.given (3 + 1 / 10 ^ 30)), num_t := some (.given 4), t0 := some (.given 0) })
      (fun e => decide (e.wl = [155 / 10 ^ 8])) = true := by decide +kernel
  obtain ⟨e, he, a1⟩ := okAnd_iff.mp h1
  obtain ⟨e', he', a2⟩ := okAnd_iff.mp h2
  obtain ⟨_, g, -, g1, g2, -⟩ := example_grid 3 0 4 (by norm_num) (by norm_num) (by norm_num)
  obtain ⟨_, g', -, g1', g2', -⟩ := example_grid (3 + 1 / 10 ^ 30) 0 4 (by norm_num) (by norm_num) (by norm_num)
  obtain rfl := Except.ok.inj (g.symm.trans he)
  obtain rfl := Except.ok.inj (g'.symm.trans he')
  refine ⟨_, _, he, he', ?_⟩
  by_contra h
  have h3 := (C12_eq_partial _ _ _ _ he he' ⟨0, 3, by rw [g1.1]; exact g1⟩ ⟨0, _, by rw [g1'.1]; exact g1'⟩
    (one _ _ (of_decide_eq_true a1)) (one _ _ (of_decide_eq_true a2))).mp (by simpa using h)
  have h4 := congrArg Env.dt h3
  simp only [Env.published, g2, g2', Option.some.injEq] at h4
  norm_num at h4

end PT
