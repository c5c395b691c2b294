import Verif.Props.Rounded
import Verif.Props.EnvCopy

/-!
# C108: copies of environments in floating-point arithmetic
-/

namespace PT
open Spec

variable {rd : ℚ → ℚ}

/-- The first point in time is not after the end of the environment, and the step is not negative; for a single point the end is the
default `t1 = 1e-12`. -/
def CopyableR (rd : ℚ → ℚ) (e : Env) : Prop :=
  (e.t1 = none → e.t0 ≤ rd (1 / 10 ^ 12)) ∧ (∀ d, e.dt = some d → 0 ≤ d) ∧ ∀ y, e.t1 = some y → e.t0 ≤ y

theorem asDefault_none (x : Option ℚ) (y : ℚ) : (asDefault id x (.dflt y)).isDefault = true := by
  cases x <;> rfl

theorem timeR_default (e : Env) : timeArrR rd (e.toArgsR rd) = .ok (some e.t) := by
  rw [timeArrR_array]
  · rfl
  · right
    simp only [Supplied, ← isDefault_false_iff, Env.toArgsR, defaultArgsR, asDefault_none]
    simp

theorem wlR_default (e : Env) (c : ℚ) : wlArrR rd c (e.toArgsR rd) = .ok (some e.wl) := by
  unfold wlArrR
  rw [if_pos]
  · rfl
  · simp [Env.toArgsR, countGiven, defaultArgsR, asDefault_none]

theorem bitrateR_default (e : Env) : bitrateOfR rd (e.toArgsR rd) = .ok e.bitrate := by
  unfold bitrateOfR
  have hd : (asDefault id e.bitlength Arg.none).isDefault = true := by
    cases e.bitlength <;> rfl
  simp only [Env.toArgsR, defaultArgsR, hd, Bool.not_true, Bool.false_eq_true, if_false]
  cases hb : e.bitrate <;> simp [asDefault]

theorem toArgsR_no_conflict (e : Env) : ¬ Conflict (e.toArgsR rd) := by
  rw [← exclGuard_iff]
  have hn : ∀ (x : Option ℚ), (asDefault id x Arg.none).isDefault = true := by
    intro x; cases x <;> rfl
  simp [exclGuard, countGiven, Env.toArgsR, defaultArgsR, asDefault_none, hn]

theorem toArgsR_signs (e : Env) (ht : e.t1 = none ↔ e.dt = none) (h0 : 0 ≤ rd (1 / 10 ^ 14)) :
    (∃ d x y, HasValue (e.toArgsR rd).dt d ∧ HasValue (e.toArgsR rd).t0 x ∧ HasValue (e.toArgsR rd).t1 y ∧ 0 ≤ d ∧ x ≤ y)
      ↔ CopyableR rd e := by
  unfold CopyableR
  cases h1 : e.dt <;> cases h2 : e.t1 <;>
    simp_all [HasValue, Env.toArgsR, asDefault, defaultArgsR]

/-- C108: whatever the rounding, `copy()` of an environment is exactly this environment (without attributes that begin with an underscore): nothing is computed a second time in a
different way. Environments that end before they begin are rejected. -/
theorem C108_copy (rd : ℚ → ℚ) (h0 : 0 ≤ rd (1 / 10 ^ 14)) (a : Args) (e : Env) (h : Env.initR rd a = .ok e) :
    (CopyableR rd e → e.copyR rd {} = .ok e.published) ∧ (¬ CopyableR rd e → e.copyR rd {} = .error .valueError) := by
  obtain ⟨c, br0, t0l, t, wl, f, sr, bl, hc, hchk, hbr, ht, htt, htne, hwl, hwne, hsr, hbl, hf, he⟩ := initR_ok h
  have hend : e.t1 = none ↔ e.dt = none := by
    subst he
    simp [timeEndR]
  have hsg := toArgsR_signs e hend h0
  constructor
  · intro hcp
    have hchk : checkArgs (e.toArgsR rd) = .ok () := checkArgs_ok.mpr ⟨toArgsR_no_conflict e, hsg.mpr hcp⟩
    have hfdt : (if (e.toArgsR rd).freqdomain then e.t.take 1 else e.t) = e.t := by
      show (if e.freqdomain = true then _ else _) = _
      subst he
      simp only
      split
      · rename_i hfd
        rw [htt, if_pos hfd]
        simp
      · rfl
    have hfdb : (if (e.toArgsR rd).freqdomain then none else e.bitrate) = e.bitrate := by
      show (if e.freqdomain = true then _ else _) = _
      subst he
      simp only
      split <;> simp_all
    have hm := initR_mk (a := e.toArgsR rd) (c := e.c) (br0 := e.bitrate) (t0l := e.t) (wl := e.wl)
      (f := e.f) (sr := e.samplerate) (bl := e.bitlength) (.inl rfl) hchk
      (bitrateR_default e) (timeR_default e) (by subst he; exact htne)
      (wlR_default e e.c) (by subst he; exact hwne)
      (by rw [hfdt]; subst he; exact hsr) (by rw [hfdb]; subst he; exact hbl) (by subst he; exact hf)
    rw [Env.copyR, update_empty, hm, hfdt, hfdb]
    congr 1
    unfold mkEnvR
    rw [show (e.toArgsR rd).extras = e.published.extras from public_eq e]
    subst he
    rfl
  · intro hcp
    have hchk : checkArgs (e.toArgsR rd) = .error .valueError := by
      rw [checkArgs_eq, if_neg (mt (exclGuard_iff _).mp (toArgsR_no_conflict e))]
      have hno := mt hsg.mp hcp
      have h1 : ∃ d, (e.toArgsR rd).dt.val = .ok d := by
        cases h1 : e.dt <;> simp [Env.toArgsR, asDefault, h1, defaultArgsR]
      have h2 : ∃ d, (e.toArgsR rd).t1.val = .ok d := by
        cases h1 : e.t1 <;> simp [Env.toArgsR, asDefault, h1, defaultArgsR]
      obtain ⟨d, hd⟩ := h1
      obtain ⟨y, hy⟩ := h2
      have hx : (e.toArgsR rd).t0.val = .ok e.t0 := rfl
      unfold signChecks
      simp only [hd, hy, hx, ok_bind]
      split_ifs with i1 i2
      · rfl
      · rfl
      · exact absurd ⟨d, e.t0, y, val_eq_ok.mp hd, val_eq_ok.mp hx, val_eq_ok.mp hy,
          not_lt.mp i1, not_lt.mp i2⟩ hno
    rw [Env.copyR, update_empty]
    unfold Env.initR
    have hc : (e.toArgsR rd).c.val = .ok e.c := rfl
    simp [hc, hchk]

/-- Time arrays that never go back before their first point. -/
theorem late_copyable {e : Env} {x : ℚ} {a : Args} (h : Env.initR fl a = .ok e) (hb : Binary64 x)
    (h0 : ∀ w, e.t[0]? = some w → w = x) (hl : ∀ (i : ℕ) (w : ℚ), e.t[i]? = some w → x ≤ w)
    (h1 : e.num_t = 1 → x ≤ fl (1 / 10 ^ 12)) : CopyableR fl e := by
  obtain ⟨c, br0, t0l, t, wl, f, sr, bl, hc, hchk, hbr, ht, htt, htne, hwl, hwne, hsr, hbl, hf, he⟩ := initR_ok h
  subst he
  clear hchk hbr ht htt hwl hsr hbl hf hwne hc
  simp only at h0 hl h1
  unfold CopyableR
  simp only
  match t, htne with
  | [u], _ =>
    have hu := h0 u rfl
    subst hu
    exact ⟨fun _ => h1 rfl, fun d hd => by simp [firstStepR, firstStep] at hd, fun y hy => by simp [timeEndR, firstStepR, firstStep] at hy⟩
  | u :: v :: r, _ =>
    have hu := h0 u rfl
    have hv := hl 1 v rfl
    subst hu
    have hs : 0 ≤ fl (v - u) := fl_nonneg (by linarith)
    refine ⟨fun hn => by simp [timeEndR, firstStepR, firstStep] at hn, fun d hd => ?_, fun y hy => ?_⟩
    · simp only [firstStepR, firstStep, Option.map_some, Option.some.injEq] at hd
      rw [← hd]
      exact hs
    · simp only [timeEndR, firstStepR, firstStep, Option.map_some, Option.some.injEq] at hy
      rw [← hy]
      have hlast : u ≤ lastD (u :: v :: r) := by
        refine hl (r.length + 1) _ ?_
        unfold lastD
        rw [List.getLastD_eq_getLast?, List.getLast?_eq_getElem?]
        simp
      have := fl_mono (show u ≤ lastD (u :: v :: r) + fl (v - u) by linarith)
      rw [fl_of hb] at this
      exact this

/-- C108 for floating-point numbers: an environment given by its first point, its last point, its step, its sample rate or its number
of points is copied exactly. -/
theorem C108_grid (a : Args) (e : Env) (d x : ℚ) (h : Env.initR fl a = .ok e) (ht' : ¬ Supplied a .t)
    (hs : Supplied a .dt ∨ Supplied a .samplerate ∨ Supplied a .num_t ∨ Supplied a .t0 ∨ Supplied a .t1)
    (hd : FloatStep a d) (hd0 : 0 ≤ d) (hx : HasValue a.t0 x) (hb : Binary64 x) (h1 : e.num_t = 1 → x ≤ fl (1 / 10 ^ 12)) :
    e.copyR fl {} = .ok e.published := by
  have hpos : 0 ≤ fl (1 / 10 ^ 14) := fl_nonneg (by norm_num)
  refine (C108_copy fl hpos a e h).1 ?_
  suffices hgrid : (∀ w, e.t[0]? = some w → w = x) ∧ (∀ (i : ℕ) (w : ℚ), e.t[i]? = some w → x ≤ w) from
    late_copyable h hb hgrid.1 hgrid.2 h1
  obtain ⟨c, br0, t0l, t, wl, f, sr, bl, hc, hchk, hbr, ht, htt, htne, hwl, -, -, -, -, he⟩ := initR_ok h
  have het : e.t = t := by subst he; rfl
  rw [het]
  have hsub : (∀ w, t0l[0]? = some w → w = x) ∧ (∀ (i : ℕ) (w : ℚ), t0l[i]? = some w → x ≤ w) := by
    rw [timeArrR_grid ht' hs, floatStep_ok.mpr hd] at ht
    simp only [ok_bind, val_eq_ok.mpr hx, pure_eq_ok] at ht
    have hup : ∀ v : ℚ, 0 ≤ v → x ≤ fl (v + x) := fun v hv => by
      have := fl_mono (show x ≤ v + x by linarith)
      rwa [fl_of hb] at this
    split_ifs at ht with hn
    · rw [bind_eq_ok] at ht
      obtain ⟨n, -, ht⟩ := ht
      rw [bind_eq_ok] at ht
      obtain ⟨l, hl, ht⟩ := ht
      cases ht
      obtain ⟨hn0, -, hv⟩ := linspaceR_ok hl
      refine ⟨fun w hw => ?_, fun i w hw => ?_⟩
      · have := (hv 0 w hw).2
        simp only [Nat.cast_zero, fl_zero, zero_div, zero_mul, ite_self, zero_add, fl_of hb] at this
        exact this
      · have hn1 : (0 : ℚ) ≤ n := by exact_mod_cast hn0
        have hi0 : (0 : ℚ) ≤ i := Nat.cast_nonneg i
        have p1 : 0 ≤ fl (fl (x + fl (fl (n : ℚ) * d)) - x) := by
          refine fl_nonneg ?_
          have := hup (fl (fl (n : ℚ) * d)) (fl_nonneg (mul_nonneg (fl_nonneg hn1) hd0))
          rw [add_comm] at this
          linarith
        rw [(hv i w hw).2]
        refine hup _ ?_
        split_ifs
        · exact fl_nonneg (mul_nonneg (fl_nonneg (div_nonneg (fl_nonneg hi0) (fl_nonneg hn1))) p1)
        · exact fl_nonneg (mul_nonneg (fl_nonneg hi0) (fl_nonneg (div_nonneg p1 (fl_nonneg hn1))))
    · rw [bind_eq_ok] at ht
      obtain ⟨y, hy, ht⟩ := ht
      rw [bind_eq_ok] at ht
      obtain ⟨l, hl, ht⟩ := ht
      cases ht
      obtain ⟨-, d', x', y', -, hx', hy', -, hxy⟩ := checkArgs_ok.mp hchk
      obtain rfl := value_unique hx hx'
      obtain rfl := value_unique (val_eq_ok.mp hy) hy'
      obtain ⟨hdne, -, hv⟩ := arangeR_ok hl
      have hq0 : 0 ≤ fl (fl (y - x) / d) := fl_nonneg (div_nonneg (fl_nonneg (by linarith)) hd0)
      rcases hv with hv | hv
      · rw [hv]
        refine ⟨fun w hw => by simpa using hw.symm, fun i w hw => ?_⟩
        have := List.mem_of_getElem? hw
        simp only [List.mem_singleton] at this
        exact this.ge
      · simp only [hq0, if_true] at hv
        refine ⟨fun w hw => ?_, fun i w hw => ?_⟩
        · have := hv 0 w hw
          simp only [Nat.cast_zero, fl_zero, mul_zero, add_zero, fl_of hb] at this
          exact this
        · rw [hv i w hw, add_comm]
          exact hup _ (fl_nonneg (mul_nonneg hd0 (fl_nonneg (Nat.cast_nonneg i))))
  rw [htt]
  split_ifs
  · refine ⟨fun w hw => hsub.1 w ?_, fun i w hw => ?_⟩
    · rw [List.getElem?_take] at hw
      simpa using hw
    · rw [List.getElem?_take] at hw
      split_ifs at hw
      exact hsub.2 i w hw
  · exact hsub

example : ∃ e, Env.makeR fl { dt := some (.given (fl (1 / 10 ^ 14))), t1 := some (.given (fl (23 / 10 ^ 14))) } = .ok e ∧
    e.copyR fl {} = .ok e.published := by
  have key : okAnd (Env.makeR fl { dt := some (.given (fl (1 / 10 ^ 14))), t1 := some (.given (fl (23 / 10 ^ 14))) })
      (fun _ => true) = true := by decide +kernel
  obtain ⟨e, he, -⟩ := okAnd_iff.mp key
  exact ⟨e, he, C108_grid _ e (fl (1 / 10 ^ 14)) 0 he (by rintro ⟨q, hq⟩; cases hq) (.inl ⟨_, rfl⟩)
    (.inr ⟨(by rintro ⟨q, hq⟩; cases hq), .inr rfl⟩) (fl_nonneg (by norm_num)) (.inl rfl)
    ⟨0, 0, by norm_num, by norm_num, by norm_num⟩ fun _ => fl_nonneg (by norm_num)⟩

end PT
