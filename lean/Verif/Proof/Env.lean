import Verif.Proof.Basic
import Verif.Spec.Environment
import Mathlib.Tactic.Linarith
import Mathlib.Tactic.FieldSimp
import Mathlib.Tactic.Ring

/-! Lemmas about the environment model. -/

namespace PT
open Spec

theorem isDefault_iff {α : Type} (x : Arg α) : x.isDefault = true ↔ ¬ ∃ v, x = .given v := by
  cases x <;> simp [Arg.isDefault]

theorem isDefault_false_iff {α : Type} (x : Arg α) : x.isDefault = false ↔ ∃ v, x = .given v := by
  cases x <;> simp [Arg.isDefault]

theorem val_eq_ok {α : Type} {x : Arg α} {v : α} : x.val = .ok v ↔ HasValue x v := by
  cases x <;> simp [Arg.val, HasValue]

@[simp] theorem isDefault_given {α : Type} (v : α) : (Arg.given v).isDefault = false := rfl
@[simp] theorem isDefault_dflt {α : Type} (v : α) : (Arg.dflt v).isDefault = true := rfl
@[simp] theorem isDefault_none {α : Type} : (Arg.none : Arg α).isDefault = true := rfl
@[simp] theorem val_given {α : Type} (v : α) : (Arg.given v).val = .ok v := rfl
@[simp] theorem val_dflt {α : Type} (v : α) : (Arg.dflt v).val = .ok v := rfl

theorem val_error {α : Type} {x : Arg α} {e : PyErr} (h : x.val = .error e) : e = .typeError := by
  cases x <;> simp_all [Arg.val]

/-- The guard collecting the eight exclusion checks. -/
def exclGuard (a : Args) : Prop :=
  (countGiven [a.dt.isDefault, a.samplerate.isDefault, a.t.isDefault] > 1) ∨
  ((!a.t0.isDefault && !a.t.isDefault) = true) ∨
  (countGiven [a.t1.isDefault, a.num_t.isDefault, a.t.isDefault] > 1) ∨
  ((!a.bitrate.isDefault && !a.bitlength.isDefault) = true) ∨
  ((!a.wl.isDefault && !a.f.isDefault) = true) ∨
  (countGiven [a.dwl.isDefault, a.df.isDefault, a.num_wl.isDefault, a.num_f.isDefault,
      a.wl.isDefault, a.f.isDefault] > 1) ∨
  (countGiven [a.wl0.isDefault, a.f0.isDefault, a.wl.isDefault, a.f.isDefault] > 1) ∨
  (countGiven [a.wl1.isDefault, a.f1.isDefault, a.wl.isDefault, a.f.isDefault] > 1)

/-- The sign checks after the exclusion checks. -/
def signChecks (a : Args) : Except PyErr Unit := do
  if (← a.dt.val) < 0 then .error .valueError
  else if (← a.t0.val) > (← a.t1.val) then .error .valueError
  else .ok ()

instance (a : Args) : Decidable (exclGuard a) := by unfold exclGuard; infer_instance

theorem checkArgs_eq (a : Args) : checkArgs a =
    if exclGuard a then .error .valueError else signChecks a := by
  by_cases hg : exclGuard a
  · rw [if_pos hg]
    unfold exclGuard at hg
    unfold checkArgs
    rcases hg with h | h | h | h | h | h | h | h <;> simp only [h, if_true, ite_self]
  · rw [if_neg hg]
    unfold exclGuard at hg
    simp only [not_or] at hg
    obtain ⟨h1, h2, h3, h4, h5, h6, h7, h8⟩ := hg
    unfold checkArgs
    rw [if_neg h1, if_neg h2, if_neg h3, if_neg h4, if_neg h5, if_neg h6, if_neg h7, if_neg h8]
    rfl

theorem count_zero (l : List Bool) : countGiven l = 0 ↔ ∀ x ∈ l, x = true := by
  simp [countGiven]

theorem count3 (x y z : Bool) : countGiven [x, y, z] > 1 ↔
    (x = false ∧ y = false) ∨ (x = false ∧ z = false) ∨ (y = false ∧ z = false) := by
  cases x <;> cases y <;> cases z <;> decide

theorem count4 (x y z w : Bool) : countGiven [x, y, z, w] > 1 ↔
    (x = false ∧ y = false) ∨ (x = false ∧ z = false) ∨ (x = false ∧ w = false) ∨
    (y = false ∧ z = false) ∨ (y = false ∧ w = false) ∨ (z = false ∧ w = false) := by
  cases x <;> cases y <;> cases z <;> cases w <;> decide

theorem count6 (x y z w u v : Bool) : countGiven [x, y, z, w, u, v] > 1 ↔
    (x = false ∧ y = false) ∨ (x = false ∧ z = false) ∨ (x = false ∧ w = false) ∨
    (x = false ∧ u = false) ∨ (x = false ∧ v = false) ∨
    (y = false ∧ z = false) ∨ (y = false ∧ w = false) ∨ (y = false ∧ u = false) ∨
    (y = false ∧ v = false) ∨
    (z = false ∧ w = false) ∨ (z = false ∧ u = false) ∨ (z = false ∧ v = false) ∨
    (w = false ∧ u = false) ∨ (w = false ∧ v = false) ∨ (u = false ∧ v = false) := by
  cases x <;> cases y <;> cases z <;> cases w <;> cases u <;> cases v <;> decide

theorem exclGuard_iff (a : Args) : exclGuard a ↔ Conflict a := by
  unfold exclGuard
  simp only [Bool.and_eq_true, Bool.not_eq_true',
    count3, count4, count6, isDefault_false_iff]
  simp only [Conflict, exclusivePairs, List.exists_mem_cons_iff, List.not_mem_nil, false_and,
    exists_false, or_false, Supplied]
  generalize (∃ v, a.dt = .given v) = p_dt
  generalize (∃ v, a.samplerate = .given v) = p_samplerate
  generalize (∃ v, a.num_t = .given v) = p_num_t
  generalize (∃ v, a.t0 = .given v) = p_t0
  generalize (∃ v, a.t1 = .given v) = p_t1
  generalize (∃ v, a.t = .given v) = p_t
  generalize (∃ v, a.bitrate = .given v) = p_bitrate
  generalize (∃ v, a.bitlength = .given v) = p_bitlength
  generalize (∃ v, a.wl = .given v) = p_wl
  generalize (∃ v, a.f = .given v) = p_f
  generalize (∃ v, a.dwl = .given v) = p_dwl
  generalize (∃ v, a.df = .given v) = p_df
  generalize (∃ v, a.num_wl = .given v) = p_num_wl
  generalize (∃ v, a.num_f = .given v) = p_num_f
  generalize (∃ v, a.wl0 = .given v) = p_wl0
  generalize (∃ v, a.f0 = .given v) = p_f0
  generalize (∃ v, a.wl1 = .given v) = p_wl1
  generalize (∃ v, a.f1 = .given v) = p_f1
  simp only [or_assoc]
  constructor
  · intro h
    repeat' (rcases h with h | h)
    all_goals (obtain ⟨h1, h2⟩ := h; simp only [h1, h2, and_self, true_or, or_true])
  · intro h
    repeat' (rcases h with h | h)
    all_goals (obtain ⟨h1, h2⟩ := h; simp only [h1, h2, and_self, true_or, or_true])

theorem signChecks_ok {a : Args} : signChecks a = .ok () ↔
    ∃ d x y, HasValue a.dt d ∧ HasValue a.t0 x ∧ HasValue a.t1 y ∧ 0 ≤ d ∧ x ≤ y := by
  unfold signChecks
  simp only [← val_eq_ok]
  cases h1 : a.dt.val <;> cases h2 : a.t0.val <;> cases h3 : a.t1.val <;> simp <;>
    split_ifs <;> simp_all [not_lt]

theorem signChecks_valueError {a : Args} (h : signChecks a = .error .valueError) :
    BadTimes a := by
  unfold signChecks at h
  unfold BadTimes
  simp only [← val_eq_ok]
  cases h1 : a.dt.val with
  | error e => have := val_error h1; simp_all
  | ok d =>
    by_cases hd : d < 0
    · left; simp_all
    · cases h2 : a.t0.val with
      | error e => have := val_error h2; simp_all
      | ok x =>
        cases h3 : a.t1.val with
        | error e' => have := val_error h3; simp_all
        | ok y => simp_all

theorem checkArgs_ok {a : Args} : checkArgs a = .ok () ↔
    ¬ Conflict a ∧ ∃ d x y, HasValue a.dt d ∧ HasValue a.t0 x ∧ HasValue a.t1 y ∧ 0 ≤ d ∧ x ≤ y := by
  rw [checkArgs_eq, ← exclGuard_iff, ← signChecks_ok]
  by_cases hg : exclGuard a <;> simp [hg]

theorem checkArgs_valueError {a : Args} (h : checkArgs a = .error .valueError) :
    Conflict a ∨ BadTimes a := by
  rw [checkArgs_eq] at h
  rw [← exclGuard_iff]
  by_cases hg : exclGuard a
  · exact .inl hg
  · simp only [hg] at h
    exact .inr (signChecks_valueError h)

/-- Inversion of a successful construction. -/
theorem init_ok {a : Args} {e : Env} (h : Env.init a = .ok e) :
    ∃ c br0 t0l wl0l t wl f sr bl,
      HasValue a.c c ∧ checkArgs a = .ok () ∧ bitrateOf a = .ok br0 ∧
      timeArr a = .ok (some t0l) ∧ t = (if a.freqdomain then t0l.take 1 else t0l) ∧ t ≠ [] ∧
      wlArr c a = .ok (some wl0l) ∧ wl = wl0l ∧ wl ≠ [] ∧
      recipOpt (firstStep t) = .ok sr ∧
      recipOpt (if a.freqdomain then none else br0) = .ok bl ∧
      npDivArr c wl = .ok f ∧
      e = { name := a.name, t := t, t0 := t.headD 0, t1 := timeEnd t, num_t := t.length,
            dt := firstStep t, samplerate := sr,
            bitrate := if a.freqdomain then none else br0, bitlength := bl,
            wl := wl, wl0 := wl.headD 0, wl1 := gridEnd wl, num_wl := wl.length,
            dwl := firstStep wl, f := f, f0 := f.headD 0, f1 := gridEnd f, num_f := f.length,
            df := firstStep f, c := c, freqdomain := a.freqdomain, grad := a.grad,
            extras := a.extras } := by
  unfold Env.init at h
  simp only [bind_eq_ok, pure_eq_ok] at h
  obtain ⟨c, hc, ⟨⟩, hchk, br0, hbr, t, ht, wl, hwl, ⟨tl, t0⟩, hth, sr, hsr, bl, hbl,
    ⟨wll, wl0⟩, hwh, f, hf, he⟩ := h
  cases t with
  | none => cases hfd : a.freqdomain <;> simp [hfd, headOf] at hth
  | some t0l =>
    have h1 : headOf (some (if a.freqdomain then t0l.take 1 else t0l)) = .ok (tl, t0) := by
      cases hfd : a.freqdomain <;> simpa [hfd] using hth
    have h2 : tl = (if a.freqdomain then t0l.take 1 else t0l) ∧ t0 = tl.headD 0 ∧ tl ≠ [] := by
      generalize (if a.freqdomain then t0l.take 1 else t0l) = q at h1 ⊢
      cases q <;> simp_all [headOf]
      obtain ⟨rfl, rfl⟩ := h1
      simp
    cases wl with
    | none => simp [headOf] at hwh
    | some wl0l =>
      have h3 : wll = wl0l ∧ wl0 = wll.headD 0 ∧ wll ≠ [] := by
        cases wl0l <;> simp_all [headOf]
        obtain ⟨rfl, rfl⟩ := hwh
        simp
      obtain ⟨h2a, rfl, h2c⟩ := h2
      obtain ⟨rfl, rfl, h3c⟩ := h3
      refine ⟨c, br0, t0l, wll, tl, wll, f, sr, bl, val_eq_ok.mp hc, hchk, hbr, ht, h2a, h2c, hwl,
        rfl, h3c, hsr, hbl, hf, ?_⟩
      simpa using he.symm

/-- The record built by the constructor from the computed pieces. -/
def mkEnv (a : Args) (c : ℚ) (br sr bl : Option ℚ) (t wl f : List ℚ) : Env :=
  { name := a.name, t := t, t0 := t.headD 0, t1 := timeEnd t, num_t := t.length,
    dt := firstStep t, samplerate := sr, bitrate := br, bitlength := bl,
    wl := wl, wl0 := wl.headD 0, wl1 := gridEnd wl, num_wl := wl.length,
    dwl := firstStep wl, f := f, f0 := f.headD 0, f1 := gridEnd f, num_f := f.length,
    df := firstStep f, c := c, freqdomain := a.freqdomain, grad := a.grad,
    extras := a.extras }

theorem headOf_some {l : List ℚ} (h : l ≠ []) : headOf (some l) = .ok (l, l.headD 0) := by
  cases l <;> simp_all [headOf]

/-- Construction succeeds when the pieces do. -/
theorem init_mk {a : Args} {c : ℚ} {br0 sr bl : Option ℚ} {t0l wl f : List ℚ}
    (hc : HasValue a.c c) (hchk : checkArgs a = .ok ()) (hbr : bitrateOf a = .ok br0)
    (ht : timeArr a = .ok (some t0l)) (hne : t0l ≠ [])
    (hwl : wlArr c a = .ok (some wl)) (hwne : wl ≠ [])
    (hsr : recipOpt (firstStep (if a.freqdomain then t0l.take 1 else t0l)) = .ok sr)
    (hbl : recipOpt (if a.freqdomain then none else br0) = .ok bl)
    (hf : npDivArr c wl = .ok f) :
    Env.init a = .ok (mkEnv a c (if a.freqdomain then none else br0) sr bl
      (if a.freqdomain then t0l.take 1 else t0l) wl f) := by
  have h1 : (if a.freqdomain = true then Option.map (fun x => List.take 1 x) (some t0l)
      else some t0l) = some (if a.freqdomain = true then t0l.take 1 else t0l) := by
    split <;> rfl
  have h2 : (if a.freqdomain = true then t0l.take 1 else t0l) ≠ [] := by
    split <;> simp_all
  unfold Env.init
  simp only [val_eq_ok.mpr hc, hchk, hbr, ht, hwl, ok_bind, h1, headOf_some h2, hsr, hbl,
    headOf_some hwne, hf, pure_eq_ok, mkEnv]

theorem bitrateOf_cases (a : Args) :
    (∃ v, a.bitlength = .given v ∧ bitrateOf a = (do return some (← pyDiv 1 v))) ∨
    ((¬ ∃ v, a.bitlength = .given v) ∧ ((∃ v, HasValue a.bitrate v ∧ bitrateOf a = .ok (some v)) ∨
      (a.bitrate = .none ∧ bitrateOf a = .ok none))) := by
  unfold bitrateOf
  cases h : a.bitlength <;> cases h' : a.bitrate <;>
    simp [Arg.isDefault, Arg.val, HasValue]

/-- Which arguments select a freshly built time grid. -/
theorem timeArr_grid {a : Args} (ht : ¬ Supplied a .t)
    (hs : Supplied a .dt ∨ Supplied a .samplerate ∨ Supplied a .num_t ∨ Supplied a .t0 ∨
      Supplied a .t1) :
    timeArr a = (do
      let dt ← stepArg a
      if !a.num_t.isDefault then
        let n ← a.num_t.val
        let t0 ← a.t0.val
        return some (← linspaceOpen t0 (t0 + n * dt) n)
      else
        return some (← arange (← a.t0.val) (← a.t1.val) dt)) := by
  unfold timeArr
  rw [if_neg]
  · simp only [Bool.not_eq_true', Bool.or_eq_true, decide_eq_true_eq, not_or]
    constructor
    · simp only [isDefault_false_iff]; exact ht
    · intro h
      simp only [Supplied, ← isDefault_false_iff] at hs
      rw [count_zero] at h
      simp only [List.forall_mem_cons] at h
      simp_all

theorem timeArr_array {a : Args}
    (h : Supplied a .t ∨ ¬ (Supplied a .dt ∨ Supplied a .samplerate ∨ Supplied a .num_t ∨
      Supplied a .t0 ∨ Supplied a .t1)) :
    timeArr a = arrOf a.t := by
  unfold timeArr
  rw [if_pos]
  simp only [Supplied, not_or, ← isDefault_false_iff] at h
  rcases h with h | ⟨h1, h2, h3, h4, h5⟩
  · simp [h]
  · simp [countGiven, h1, h2, h3, h4, h5]

theorem step_ok {a : Args} {d : ℚ} :
    stepArg a = .ok d ↔ StepOf a d := by
  unfold StepOf stepArg
  cases h : a.samplerate with
  | given r =>
    simp only [Arg.isDefault, Arg.val, Bool.not_false, if_true, ok_bind, pyDiv_eq_ok,
      Arg.given.injEq, exists_eq', not_true, false_and, or_false, exists_eq_left']
    constructor
    · rintro ⟨h1, rfl⟩; field_simp
    · intro h1
      have h2 : r ≠ 0 := by rintro rfl; simp at h1
      exact ⟨h2, by field_simp; linarith⟩
  | dflt r => simp [Arg.isDefault, val_eq_ok]
  | none => simp [Arg.isDefault, val_eq_ok]

end PT
