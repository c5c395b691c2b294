import Verif.Proof.Rounded
import Verif.Proof.Grid

/-! Proof support: environments with rounded arithmetic. -/

namespace PT
open Spec

variable {rd : ℚ → ℚ}

theorem pyDivR_ok {x y z : ℚ} : pyDivR rd x y = .ok z ↔ y ≠ 0 ∧ z = rd (x / y) := by
  unfold pyDivR pyDiv
  split <;> simp_all [Except.map, eq_comm]

theorem npDivArrR_ok {x : ℚ} {l m : List ℚ} : npDivArrR rd x l = .ok m ↔ 0 ∉ l ∧ m = l.map fun w => rd (x / w) := by
  unfold npDivArrR npDivArr
  split <;> simp_all [Except.map, eq_comm, Function.comp_def]

/-- Inversion of a successful construction. -/
theorem initR_ok {a : Args} {e : Env} (h : Env.initR rd a = .ok e) :
    ∃ c br0 t0l t wl f sr bl,
      HasValue a.c c ∧ checkArgs a = .ok () ∧ bitrateOfR rd a = .ok br0 ∧
      timeArrR rd a = .ok (some t0l) ∧ t = (if a.freqdomain then t0l.take 1 else t0l) ∧ t ≠ [] ∧
      wlArrR rd c a = .ok (some wl) ∧ wl ≠ [] ∧
      recipOptR rd (firstStepR rd t) = .ok sr ∧
      recipOptR rd (if a.freqdomain then none else br0) = .ok bl ∧
      npDivArrR rd c wl = .ok f ∧
      e = { name := a.name, t := t, t0 := t.headD 0, t1 := timeEndR rd t, num_t := t.length,
            dt := firstStepR rd t, samplerate := sr,
            bitrate := if a.freqdomain then none else br0, bitlength := bl,
            wl := wl, wl0 := wl.headD 0, wl1 := gridEndR rd wl, num_wl := wl.length,
            dwl := firstStepR rd wl, f := f, f0 := f.headD 0, f1 := gridEndR rd f, num_f := f.length,
            df := firstStepR rd f, c := c, freqdomain := a.freqdomain, grad := a.grad,
            extras := a.extras } := by
  unfold Env.initR at h
  simp only [bind_eq_ok, pure_eq_ok] at h
  obtain ⟨c, hc, ⟨⟩, hchk, br0, hbr, t, ht, wl, hwl, ⟨tl, t0⟩, hth, sr, hsr, bl, hbl,
    ⟨wll, wl0⟩, hwh, f, hf, he⟩ := h
  cases t with
  | none => cases hfd : a.freqdomain <;> simp [hfd, headOf] at hth
  | some t0l =>
    have h1 : headOf (some (if a.freqdomain then t0l.take 1 else t0l)) = .ok (tl, t0) := by
      cases hfd : a.freqdomain <;> simpa [hfd] using hth
    have h2 : tl = (if a.freqdomain then t0l.take 1 else t0l) ∧ t0 = tl.headD 0 ∧ tl ≠ [] := by
      generalize (if a.freqdomain then t0l.take 1 else t0l) = q at h1 ⊢
      cases q <;> simp_all [headOf]
      obtain ⟨rfl, rfl⟩ := h1
      simp
    cases wl with
    | none => simp [headOf] at hwh
    | some wl0l =>
      have h3 : wll = wl0l ∧ wl0 = wll.headD 0 ∧ wll ≠ [] := by
        cases wl0l <;> simp_all [headOf]
        obtain ⟨rfl, rfl⟩ := hwh
        simp
      obtain ⟨h2a, rfl, h2c⟩ := h2
      obtain ⟨rfl, rfl, h3c⟩ := h3
      refine ⟨c, br0, t0l, tl, wll, f, sr, bl, val_eq_ok.mp hc, hchk, hbr, ht, h2a, h2c, hwl,
        h3c, hsr, hbl, hf, ?_⟩
      simpa using he.symm

/-- The record built by the constructor from the computed pieces. -/
def mkEnvR (rd : ℚ → ℚ) (a : Args) (c : ℚ) (br sr bl : Option ℚ) (t wl f : List ℚ) : Env :=
  { name := a.name, t := t, t0 := t.headD 0, t1 := timeEndR rd t, num_t := t.length,
    dt := firstStepR rd t, samplerate := sr, bitrate := br, bitlength := bl,
    wl := wl, wl0 := wl.headD 0, wl1 := gridEndR rd wl, num_wl := wl.length,
    dwl := firstStepR rd wl, f := f, f0 := f.headD 0, f1 := gridEndR rd f, num_f := f.length,
    df := firstStepR rd f, c := c, freqdomain := a.freqdomain, grad := a.grad,
    extras := a.extras }

/-- Construction succeeds when the pieces do. -/
theorem initR_mk {a : Args} {c : ℚ} {br0 sr bl : Option ℚ} {t0l wl f : List ℚ}
    (hc : HasValue a.c c) (hchk : checkArgs a = .ok ()) (hbr : bitrateOfR rd a = .ok br0)
    (ht : timeArrR rd a = .ok (some t0l)) (hne : t0l ≠ [])
    (hwl : wlArrR rd c a = .ok (some wl)) (hwne : wl ≠ [])
    (hsr : recipOptR rd (firstStepR rd (if a.freqdomain then t0l.take 1 else t0l)) = .ok sr)
    (hbl : recipOptR rd (if a.freqdomain then none else br0) = .ok bl)
    (hf : npDivArrR rd c wl = .ok f) :
    Env.initR rd a = .ok (mkEnvR rd a c (if a.freqdomain then none else br0) sr bl
      (if a.freqdomain then t0l.take 1 else t0l) wl f) := by
  have h1 : (if a.freqdomain = true then Option.map (fun x => List.take 1 x) (some t0l)
      else some t0l) = some (if a.freqdomain = true then t0l.take 1 else t0l) := by
    split <;> rfl
  have h2 : (if a.freqdomain = true then t0l.take 1 else t0l) ≠ [] := by
    split <;> simp_all
  unfold Env.initR
  simp only [val_eq_ok.mpr hc, hchk, hbr, ht, hwl, ok_bind, h1, headOf_some h2, hsr, hbl,
    headOf_some hwne, hf, pure_eq_ok, mkEnvR]

theorem range_get {n i j : ℕ} (h : (List.range n)[i]? = some j) : i < n ∧ j = i := by
  obtain ⟨h1, h2⟩ := List.getElem?_eq_some_iff.mp h
  rw [List.getElem_range] at h2
  exact ⟨by simpa using h1, h2.symm⟩

/-- The number and the values of the points of a range. -/
theorem arangeR_ok {s e d : ℚ} {l : List ℚ} (h : arangeR rd s e d = .ok l) :
    d ≠ 0 ∧ l.length = max 1 ⌊|rd (rd (e - s) / d)|⌋₊ ∧
      (l = [s] ∨ ∀ (i : ℕ) (w : ℚ), l[i]? = some w →
        w = rd (s + rd (d * if 0 ≤ rd (rd (e - s) / d) then rd i else -rd i))) := by
  unfold arangeR at h
  rw [bind_eq_ok] at h
  obtain ⟨q, hq, h⟩ := h
  obtain ⟨hd, rfl⟩ := pyDivR_ok.mp hq
  set q := rd (rd (e - s) / d)
  have hn := natAbs_pyTrunc q
  simp only [pure_eq_ok] at h
  refine ⟨hd, ?_⟩
  split_ifs at h with h1 h2 <;> cases h
  · refine ⟨?_, .inl rfl⟩
    rw [h1] at hn
    rw [← hn]
    rfl
  · refine ⟨?_, .inr ?_⟩
    · rw [List.length_map, List.length_range, ← hn]
      omega
    · intro i w hw
      have := pyTrunc_pos h2
      simp only [List.getElem?_map, Option.map_eq_some_iff] at hw
      obtain ⟨j, hj, rfl⟩ := hw
      obtain rfl := (range_get hj).2
      rw [if_pos this]
  · refine ⟨?_, .inr ?_⟩
    · rw [List.length_map, List.length_range, ← hn]
      omega
    · intro i w hw
      have := pyTrunc_lt (q := q) (by omega)
      simp only [List.getElem?_map, Option.map_eq_some_iff] at hw
      obtain ⟨j, hj, rfl⟩ := hw
      obtain rfl := (range_get hj).2
      rw [if_neg (by linarith)]

theorem arangeR_of_ne {s e d : ℚ} (h : d ≠ 0) : ∃ l, arangeR rd s e d = .ok l := by
  unfold arangeR
  simp only [pyDivR_ok.mpr ⟨h, rfl⟩, ok_bind, pure_eq_ok]
  split_ifs <;> exact ⟨_, rfl⟩

theorem value_unique {α : Type} {x : Arg α} {v w : α} (h : HasValue x v) (h' : HasValue x w) : v = w := by
  rcases h with h1 | h1 <;> rcases h' with h2 | h2 <;> simp_all

theorem timeArrR_grid {a : Args} (ht : ¬ Supplied a .t)
    (hs : Supplied a .dt ∨ Supplied a .samplerate ∨ Supplied a .num_t ∨ Supplied a .t0 ∨
      Supplied a .t1) :
    timeArrR rd a = (do
      let dt ← stepArgR rd a
      if !a.num_t.isDefault then
        let n ← a.num_t.val
        let t0 ← a.t0.val
        return some (← linspaceOpenR rd t0 (rd (t0 + rd (rd (n : ℚ) * dt))) n)
      else
        return some (← arangeR rd (← a.t0.val) (← a.t1.val) dt)) := by
  unfold timeArrR
  rw [if_neg]
  · simp only [Bool.not_eq_true', Bool.or_eq_true, decide_eq_true_eq, not_or]
    constructor
    · simp only [isDefault_false_iff]; exact ht
    · intro h
      simp only [Supplied, ← isDefault_false_iff] at hs
      rw [count_zero] at h
      simp only [List.forall_mem_cons] at h
      simp_all

theorem timeArrR_array {a : Args}
    (h : Supplied a .t ∨ ¬ (Supplied a .dt ∨ Supplied a .samplerate ∨ Supplied a .num_t ∨
      Supplied a .t0 ∨ Supplied a .t1)) :
    timeArrR rd a = arrOf a.t := by
  unfold timeArrR
  rw [if_pos]
  simp only [Supplied, not_or, ← isDefault_false_iff] at h
  rcases h with h | ⟨h1, h2, h3, h4, h5⟩
  · simp [h]
  · simp [countGiven, h1, h2, h3, h4, h5]

theorem linspaceR_ok {s e : ℚ} {n : ℤ} {l : List ℚ} (h : linspaceOpenR rd s e n = .ok l) :
    0 ≤ n ∧ l.length = n.toNat ∧ ∀ (i : ℕ) (w : ℚ), l[i]? = some w → i < n.toNat ∧
      w = rd ((if rd (rd (e - s) / rd n) = 0 then rd (rd (rd i / rd n) * rd (e - s)) else rd (rd i * rd (rd (e - s) / rd n))) + s) := by
  unfold linspaceOpenR at h
  split_ifs at h with h1
  simp only [Except.ok.injEq] at h
  subst h
  refine ⟨by omega, by simp, fun i w hw => ?_⟩
  simp only [List.getElem?_map, Option.map_eq_some_iff] at hw
  obtain ⟨j, hj, rfl⟩ := hw
  obtain ⟨h2, rfl⟩ := range_get hj
  exact ⟨h2, rfl⟩

/-- How many steps fit into an interval, in floating-point numbers. -/
theorem quot_err {V d : ℚ} (hd : 2 ^ (-900 : ℤ) ≤ d) (hV : 0 ≤ V) (hq : V / d ≤ 2 ^ 48) :
    |fl (fl V / d) - V / d| ≤ V / d / 2 ^ 51 + 1 / 2 ^ 100 := by
  have p9 := two_pos (-900)
  have hd0 : 0 < d := by linarith
  set Q := V / d with hQ
  have hQ0 : 0 ≤ Q := by positivity
  have h1 := fl_err V
  have ht := tiny
  rw [abs_of_nonneg hV] at h1
  have h2 : |fl V / d - Q| ≤ Q / 2 ^ 53 + 1 / 2 ^ 170 := by
    rw [hQ, ← sub_div, abs_div, abs_of_pos hd0, div_le_iff₀ hd0]
    have e1 : (V / d / 2 ^ 53 + 1 / 2 ^ 170) * d = V / 2 ^ 53 + d / 2 ^ 170 := by field_simp
    rw [e1]
    have : (2 : ℚ) ^ (-900 : ℤ) / 2 ^ 170 ≤ d / 2 ^ 170 := by
      rw [div_le_div_iff₀ (by norm_num) (by norm_num)]
      linarith
    linarith
  have h3 := fl_err (fl V / d)
  have h4 := abs_near h2
  rw [abs_of_nonneg hQ0] at h4
  have h5 : (2 : ℚ) ^ (-1075 : ℤ) ≤ 1 / 2 ^ 170 := by
    refine ht.trans ?_
    rw [div_le_div_iff₀ (by norm_num) (by norm_num)]
    have : (2 : ℚ) ^ (-900 : ℤ) ≤ 1 := by
      rw [show (1 : ℚ) = 2 ^ (0 : ℤ) from rfl]
      exact two_le (by norm_num)
    linarith
  have h6 : |fl V / d| / 2 ^ 53 ≤ (Q + (Q / 2 ^ 53 + 1 / 2 ^ 170)) / 2 ^ 53 := by
    rw [div_le_div_iff₀ (by norm_num) (by norm_num)]
    linarith
  have h7 := abs_tri (fl (fl V / d)) (fl V / d) Q
  have h8 : Q / 2 ^ 53 + 1 / 2 ^ 170 + ((Q + (Q / 2 ^ 53 + 1 / 2 ^ 170)) / 2 ^ 53 + 1 / 2 ^ 170) ≤
      Q / 2 ^ 51 + 1 / 2 ^ 100 := by
    have e1 : Q / 2 ^ 53 + 1 / 2 ^ 170 + ((Q + (Q / 2 ^ 53 + 1 / 2 ^ 170)) / 2 ^ 53 + 1 / 2 ^ 170) =
      Q * (1 / 2 ^ 53 + (1 + 1 / 2 ^ 53) / 2 ^ 53) + (1 / 2 ^ 170 + 1 / 2 ^ 170 / 2 ^ 53 + 1 / 2 ^ 170) := by ring
    rw [e1]
    have e2 : (1 : ℚ) / 2 ^ 53 + (1 + 1 / 2 ^ 53) / 2 ^ 53 ≤ 1 / 2 ^ 51 := by norm_num
    have e3 : (1 : ℚ) / 2 ^ 170 + 1 / 2 ^ 170 / 2 ^ 53 + 1 / 2 ^ 170 ≤ 1 / 2 ^ 100 := by norm_num
    have e4 := mul_le_mul_of_nonneg_left e2 hQ0
    have e5 : Q * (1 / 2 ^ 51) = Q / 2 ^ 51 := by ring
    linarith
  linarith

/-- Rounding down two numbers between which there is no integer. -/
theorem floor_same {p q : ℚ} (hp : 0 ≤ p) (hq : 0 ≤ q) (h : ∀ n : ℕ, 1 ≤ n → |q - p| < |q - n|) : ⌊p⌋₊ = ⌊q⌋₊ := by
  have side : ∀ n : ℕ, 1 ≤ n → ((n : ℚ) ≤ p ↔ (n : ℚ) ≤ q) := by
    intro n hn
    have hk := h n hn
    constructor
    · intro h1
      by_contra h2
      push Not at h2
      rw [abs_of_nonpos (by linarith), abs_of_nonpos (by linarith)] at hk
      linarith
    · intro h1
      by_contra h2
      push Not at h2
      rw [abs_of_nonneg (by linarith), abs_of_nonneg (by linarith)] at hk
      linarith
  apply le_antisymm
  · by_cases h0 : ⌊p⌋₊ = 0
    · omega
    · exact Nat.le_floor ((side _ (by omega)).mp (Nat.floor_le hp))
  · by_cases h0 : ⌊q⌋₊ = 0
    · omega
    · exact Nat.le_floor ((side _ (by omega)).mpr (Nat.floor_le hq))

theorem floor_close {p q : ℚ} (hp : 0 ≤ p) (h : |p - q| < 1) : ⌊p⌋₊ ≤ ⌊q⌋₊ + 1 := by
  by_contra hc
  push Not at hc
  have h1 := Nat.floor_le hp
  have h2 := Nat.lt_floor_add_one q
  have h3 : ((⌊q⌋₊ + 2 : ℕ) : ℚ) ≤ ⌊p⌋₊ := by exact_mod_cast hc
  push_cast at h3
  have := (abs_lt.mp h).2
  linarith

/-- The points of a grid given by its first point, its step and their number. -/
theorem grid_err {x d w : ℚ} {n i : ℕ} {l : List ℚ} (hn : 1 ≤ n) (hN : n ≤ 2 ^ 50) (hd : 2 ^ (-900 : ℤ) ≤ d)
    (h : linspaceOpenR fl x (fl (x + fl (fl ((n : ℤ) : ℚ) * d))) n = .ok l) (hw : l[i]? = some w) :
    |w - (x + i * d)| ≤ 7 * ((|x| + n * d) / 2 ^ 51) := by
  obtain ⟨-, -, hval⟩ := linspaceR_ok h
  obtain ⟨hi, hv⟩ := hval i w hw
  simp only [Int.toNat_natCast] at hi
  have hn1 : (1 : ℚ) ≤ n := by exact_mod_cast hn
  have hi1 : (i : ℚ) ≤ n := by exact_mod_cast hi.le
  have p9 := two_pos (-900)
  have hd0 : 0 < d := by linarith
  have hnd : d ≤ n * d := by nlinarith
  have hx0 := abs_nonneg x
  have hid : (i : ℚ) * d ≤ n * d := mul_le_mul_of_nonneg_right hi1 hd0.le
  have hid0 : (0 : ℚ) ≤ i * d := by positivity
  simp only [Int.cast_natCast] at hv
  rw [fl_nat (by omega : n ≤ 2 ^ 53), fl_nat (by omega : i ≤ 2 ^ 53)] at hv
  set P := |x| + n * d with hPdef
  have hP : 2 ^ (-900 : ℤ) ≤ P := by linarith
  have hP0 : 0 < P := by linarith
  set E := P / 2 ^ 51 with hE
  have hE0 : 0 < E := by positivity
  have hE1 : E ≤ P / 64 := by
    rw [hE, div_le_div_iff₀ (by norm_num) (by norm_num)]
    linarith
  have s1 : |fl (n * d) - n * d| ≤ E := fl_err_le (by rw [abs_of_pos (by linarith)]; linarith) hP
  set a1 := fl (n * d)
  have m1 := abs_near s1
  rw [abs_of_pos (show 0 < n * d by linarith)] at m1
  have s2 : |fl (x + a1) - (x + a1)| ≤ E := fl_err_le (by have := abs_add_le x a1; linarith) hP
  set b := fl (x + a1)
  have s3 : |b - x - n * d| ≤ 2 * E := by
    have := abs_tri (b - x) a1 (n * d)
    rw [show b - x - a1 = b - (x + a1) from by ring] at this
    linarith
  have m3 := abs_near s3
  rw [abs_of_pos (show 0 < n * d by linarith)] at m3
  have s4 : |fl (b - x) - (b - x)| ≤ E := fl_err_le (by linarith) hP
  set D := fl (b - x)
  have s5 : |D - n * d| ≤ 3 * E := by
    have := abs_tri D (b - x) (n * d)
    linarith
  have m5 := abs_near s5
  rw [abs_of_pos (show 0 < n * d by linarith)] at m5
  have s6 : |n * fl (D / n) - D| ≤ E := fl_div_err (by linarith) hP hn hN
  set st := fl (D / n)
  have fin : ∀ v : ℚ, |v - i * d| ≤ 6 * E → w = fl (v + x) → |w - (x + i * d)| ≤ 7 * E := by
    intro v hv1 hv2
    have m6 := abs_near hv1
    rw [abs_of_nonneg hid0] at m6
    have s7 : |fl (v + x) - (v + x)| ≤ E := fl_err_le (by have := abs_add_le v x; linarith) hP
    rw [← hv2] at s7
    have := abs_tri w (v + x) (x + i * d)
    rw [show v + x - (x + i * d) = v - i * d from by ring] at this
    linarith
  split_ifs at hv with h0
  · rw [h0, mul_zero, zero_sub, abs_neg] at s6
    have hnE : n * d ≤ 4 * E := by
      have := (abs_le.mp s5).1
      have := (abs_le.mp s6).2
      linarith
    have hz0 : (0 : ℚ) ≤ i / n := by positivity
    have hz1 : (i : ℚ) / n ≤ 1 := (div_le_one (by linarith)).mpr hi1
    have hu : |fl ((i : ℚ) / n)| ≤ 1 := by
      rw [abs_of_nonneg (fl_nonneg hz0)]
      have := (fl_nearest ((i : ℚ) / n)).2 1 ⟨1, 0, by norm_num, by norm_num, by norm_num⟩
      rw [abs_of_nonneg (show 0 ≤ 1 - (i : ℚ) / n by linarith)] at this
      linarith [(abs_le.mp this).2]
    have hp : |fl ((i : ℚ) / n) * D| ≤ E := by
      rw [abs_mul]
      calc |fl ((i : ℚ) / n)| * |D| ≤ 1 * |D| := mul_le_mul_of_nonneg_right hu (abs_nonneg _)
        _ ≤ E := by linarith
    have s7 : |fl (fl ((i : ℚ) / n) * D) - fl ((i : ℚ) / n) * D| ≤ E := fl_err_le (by linarith) hP
    have m7 := abs_near s7
    refine fin _ ?_ hv
    have := abs_sub (fl (fl ((i : ℚ) / n) * D)) (i * d)
    rw [abs_of_nonneg hid0] at this
    linarith
  · have s7 : |n * st - n * d| ≤ 4 * E := by
      have := abs_tri (n * st) D (n * d)
      linarith
    have s8 := part_err hn hi.le s7
    rw [show (n : ℚ) * d / n = d from by field_simp] at s8
    have m8 := abs_near s8
    rw [abs_of_nonneg hid0] at m8
    have s9 : |fl (i * st) - i * st| ≤ E := fl_err_le (by linarith) hP
    refine fin _ ?_ hv
    have := abs_tri (fl (i * st)) (i * st) (i * d)
    linarith

/-- Doubling a floating-point number gives a floating-point number. -/
theorem binary_shift {d : ℚ} (h : Binary64 d) (k : ℕ) : Binary64 (2 ^ k * d) := by
  obtain ⟨m, e, hm, he, rfl⟩ := h
  refine ⟨m, e + k, hm, by omega, ?_⟩
  rw [two_add, zpow_natCast]
  ring

/-- The first points of a grid starting at zero. -/
theorem grid_zero {d : ℚ} {n : ℕ} {l : List ℚ} (hn : 2 ≤ n) (hN : n ≤ 2 ^ 50) (hd : 2 ^ (-900 : ℤ) ≤ d)
    (h : linspaceOpenR fl 0 (fl (0 + fl (fl ((n : ℤ) : ℚ) * d))) n = .ok l) :
    firstStepR fl l = some (fl (fl (n * d) / n)) ∧ |fl (fl (n * d) / n) - d| ≤ d / 2 ^ 51 ∧
      (Binary64 d → (∃ k, n = 2 ^ k) → fl (fl (n * d) / n) = d) := by
  have hn1 : (1 : ℚ) ≤ n := by exact_mod_cast (by omega : 1 ≤ n)
  have p9 := two_pos (-900)
  have hd0 : 0 < d := by linarith
  have hnd : d ≤ n * d := by nlinarith
  have small : (2 : ℚ) ^ (-900 : ℤ) / 2 ^ 60 ≤ 2 ^ (-900 : ℤ) := div_le_self p9.le (by norm_num)
  have r1 := fl_rel (x := n * d) (normal_of (by rw [abs_of_pos (by linarith)]; linarith))
  rw [abs_of_pos (show 0 < n * d by linarith)] at r1
  have hdiv : |fl (n * d) / n - d| ≤ d / 2 ^ 53 := by
    rw [show fl (n * d) / n - d = (fl (n * d) - n * d) / n from by field_simp, abs_div,
      abs_of_pos (show (0 : ℚ) < n by linarith), div_le_iff₀ (by linarith)]
    linarith [show d / 2 ^ 53 * n = n * d / 2 ^ 53 from by ring]
  have hge : d / 2 ≤ fl (n * d) / n := by
    have := (abs_le.mp hdiv).1
    have : d / 2 ^ 53 ≤ d / 2 := by
      rw [div_le_div_iff₀ (by norm_num) (by norm_num)]
      linarith
    linarith
  have r2 := fl_rel (x := fl (n * d) / n) (normal_of (by
    rw [abs_of_pos (by linarith), div_le_iff₀ (by norm_num)]
    nlinarith))
  have m2 := abs_near hdiv
  rw [abs_of_pos hd0] at m2
  have hst : |fl (fl (n * d) / n) - d| ≤ d / 2 ^ 51 := by
    have t1 := abs_tri (fl (fl (n * d) / n)) (fl (n * d) / n) d
    have t2 : |fl (n * d) / n| / 2 ^ 53 ≤ (d + d / 2 ^ 53) / 2 ^ 53 := by
      rw [div_le_div_iff₀ (by norm_num) (by norm_num)]
      linarith
    have t3 : (d + d / 2 ^ 53) / 2 ^ 53 + d / 2 ^ 53 ≤ d / 2 ^ 51 := by
      rw [show (d + d / 2 ^ 53) / 2 ^ 53 + d / 2 ^ 53 = d * ((1 + 1 / 2 ^ 53) / 2 ^ 53 + 1 / 2 ^ 53) from by ring,
        show d / 2 ^ 51 = d * (1 / 2 ^ 51) from by ring]
      exact mul_le_mul_of_nonneg_left (by norm_num) hd0.le
    linarith
  refine ⟨?_, hst, ?_⟩
  · obtain ⟨-, hlen, hval⟩ := linspaceR_ok h
    simp only [Int.toNat_natCast, Int.cast_natCast] at hlen hval
    rw [fl_nat (by omega : n ≤ 2 ^ 53)] at hval
    rw [zero_add, sub_zero, fl_of (fl_binary _), fl_of (fl_binary _)] at hval
    set st := fl (fl (n * d) / n)
    have hne : st ≠ 0 := by
      intro h0
      rw [h0, zero_sub, abs_neg, abs_of_pos hd0] at hst
      have : d / 2 ^ 51 < d := div_lt_self hd0 (by norm_num)
      linarith
    simp only [hne, if_false, add_zero] at hval
    have h0 := hval 0
    have h1 := hval 1
    match l, hlen with
    | [], hl => simp at hl; omega
    | [_], hl => simp at hl; omega
    | u :: v :: _, _ =>
      have hu := (h0 u rfl).2
      have hv := (h1 v rfl).2
      rw [show ((0 : ℕ) : ℚ) = 0 from Nat.cast_zero, fl_zero, zero_mul, fl_zero, fl_zero] at hu
      rw [fl_nat (by norm_num), Nat.cast_one, one_mul, fl_of (fl_binary _), fl_of (fl_binary _)] at hv
      subst hu hv
      show some (fl (st - 0)) = _
      rw [sub_zero, fl_of (fl_binary _)]
  · rintro hb ⟨k, rfl⟩
    push_cast
    rw [fl_of (binary_shift hb k), show (2 : ℚ) ^ k * d / 2 ^ k = d from by field_simp, fl_of hb]

end PT
