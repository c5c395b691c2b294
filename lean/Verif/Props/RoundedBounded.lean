import Verif.Proof.RoundedBounded

/-!
# C145: bounded parameters, couplers and mirrors in single precision
-/

namespace PT
open Spec

/-- C145 in full: a bounded parameter of data that is accepted represents that data up to single precision, within its bounds (as numbers of
its type). -/
def C145_statement (m : Libt) : Prop := ∀ a b x : ℚ, Binary64 a → Binary64 b → Binary32 x → boundedAcceptsR fl32 a b x →
  ∃ v, boundedValueR fl fl32 m a b (inverseSigmoidR fl fl32 m a b x) = some v ∧ |(v : ℝ) - x| ≤ (|(a : ℝ)| + |(b : ℝ)|) / 2 ^ 16 + 1 / 2 ^ 140 ∧
    fl32 a ≤ v ∧ v ≤ fl32 b

/-- C145 is refuted: `BoundedParameter(torch.tensor(0.3), bounds=(0.1, 0.3))` has the weight `nan`, since `0.3 - 0.1` is larger when computed
in single precision than in double precision, so that the scaled data is larger than 1. -/
theorem C145_violation (m : Libt) : ¬ C145_statement m := by
  intro H
  obtain ⟨v, hv, -⟩ := H (fl (1 / 10)) (fl (3 / 10)) (fl32 (fl (3 / 10))) (fl_binary _) (fl_binary _) (fl32_binary _)
    (by unfold boundedAcceptsR; decide +kernel)
  have hn : inverseSigmoidR fl fl32 m (fl (1 / 10)) (fl (3 / 10)) (fl32 (fl (3 / 10))) = .nan := by
    unfold inverseSigmoidR
    rw [if_neg (by decide +kernel)]
    unfold weightOfScaledR
    rw [if_neg (by decide +kernel)]
    exact if_pos (by decide +kernel)
  rw [hn] at hv
  exact absurd hv (by simp [boundedValueR, sigmoidR])

/-- C145, another violation: `BoundedParameter(torch.tensor(0.1), bounds=(-1, 0.1))` represents a number larger than its upper bound. -/
theorem C145_bounds_violation (m : Libt) : boundedAcceptsR fl32 (-1) (fl (1 / 10)) (fl32 (fl (1 / 10))) ∧
    ∃ v, boundedValueR fl fl32 m (-1) (fl (1 / 10)) (inverseSigmoidR fl fl32 m (-1) (fl (1 / 10)) (fl32 (fl (1 / 10)))) = some v ∧
      fl32 (fl (1 / 10)) < v := by
  refine ⟨by unfold boundedAcceptsR; decide +kernel, ?_⟩
  have hn : inverseSigmoidR fl fl32 m (-1) (fl (1 / 10)) (fl32 (fl (1 / 10))) = .inf := by
    unfold inverseSigmoidR
    rw [if_neg (by decide +kernel)]
    unfold weightOfScaledR
    rw [if_neg (by decide +kernel)]
    show (if _ then _ else if _ then _ else _) = _
    rw [if_neg (by decide +kernel), if_pos (by decide +kernel)]
  rw [hn]
  exact ⟨_, rfl, by decide +kernel⟩

/-- C145, the part that holds for all bounds: unless it is `nan`, the value is the data up to single precision of the bounds. -/
theorem C145_given_partial {m : Libt} (hm : AccurateT m) (a b x v : ℚ) (hx : boundedAcceptsR fl32 a b x)
    (hv : boundedValueR fl fl32 m a b (inverseSigmoidR fl fl32 m a b x) = some v) :
    |(v : ℝ) - x| ≤ (|(a : ℝ)| + |(b : ℝ)|) / 2 ^ 16 + 1 / 2 ^ 140 := by
  obtain ⟨hab, hax, hbx⟩ := hx
  push Not at hab hax hbx
  unfold inverseSigmoidR at hv
  by_cases h0 : fl32 (fl (b - a)) = 0
  · rw [if_pos h0] at hv
    exact absurd hv (by simp [boundedValueR, sigmoidR])
  rw [if_neg h0] at hv
  unfold boundedValueR at hv
  obtain ⟨y, hy, rfl⟩ := Option.map_eq_some_iff.mp hv
  have hB : 0 ≤ fl32 (fl (b - a)) := fl32_nonneg (fl_nonneg (by linarith))
  have hB0 : 0 < fl32 (fl (b - a)) := lt_of_le_of_ne hB (Ne.symm h0)
  have hX : 0 ≤ fl32 (x - fl32 a) := fl32_nonneg (by linarith)
  have hs : 0 ≤ scaledR fl fl32 a b x := fl32_nonneg (div_nonneg hX hB)
  obtain ⟨⟨y0, y1, -⟩, hyn, -⟩ := Rbd.back hm hs hy
  have r1 := Rwv.fl_real (b - a)
  have r2 := Rwv.fl32_real (fl (b - a))
  have r3 := Rwv.fl32_real a
  have r8 := Rwv.fl32_real b
  have r4 := Rwv.fl32_real (x - fl32 a)
  have r5 := Rwv.fl32_real (fl32 (x - fl32 a) / fl32 (fl (b - a)))
  have r6 := Rwv.fl32_real (fl32 (fl (b - a)) * y)
  have r7 := Rwv.fl32_real (fl32 (fl32 (fl (b - a)) * y) + fl32 a)
  change |((fl32 (fl32 (x - fl32 a) / fl32 (fl (b - a))) : ℚ) : ℝ) - _| ≤ _ at r5
  have es : fl32 (fl32 (x - fl32 a) / fl32 (fl (b - a))) = scaledR fl fl32 a b x := rfl
  rw [es] at r5
  have hab' : (a : ℝ) < b := by exact_mod_cast hab
  have hax' : ((fl32 a : ℚ) : ℝ) ≤ x := by exact_mod_cast hax
  have hbx' : (x : ℝ) ≤ ((fl32 b : ℚ) : ℝ) := by exact_mod_cast hbx
  have y0' : (0 : ℝ) ≤ y := by exact_mod_cast y0
  have y1' : (y : ℝ) ≤ 1 := by exact_mod_cast y1
  have hB' : (0 : ℝ) < ((fl32 (fl (b - a)) : ℚ) : ℝ) := by exact_mod_cast hB0
  have hX' : (0 : ℝ) ≤ ((fl32 (x - fl32 a) : ℚ) : ℝ) := by exact_mod_cast hX
  rw [Rat.cast_sub] at r1 r4
  rw [Rat.cast_div] at r5
  rw [Rat.cast_mul] at r6
  rw [Rat.cast_add] at r7
  generalize ((scaledR fl fl32 a b x : ℚ) : ℝ) = s at hyn r5
  generalize ((fl32 (fl32 (fl32 (fl (b - a)) * y) + fl32 a) : ℚ) : ℝ) = V at r7 ⊢
  generalize ((fl32 (fl32 (fl (b - a)) * y) : ℚ) : ℝ) = P at r6 r7
  generalize ((fl32 (x - fl32 a) : ℚ) : ℝ) = X at r4 r5 hX'
  generalize ((fl32 (fl (b - a)) : ℚ) : ℝ) = B at r2 r5 r6 hB'
  generalize ((fl (b - a) : ℚ) : ℝ) = B₁ at r1 r2
  generalize ((fl32 a : ℚ) : ℝ) = A at r3 r4 r7 hax'
  generalize ((fl32 b : ℚ) : ℝ) = A' at r8 hbx'
  generalize (x : ℝ) = x at *
  generalize (y : ℝ) = y at *
  generalize (a : ℝ) = a at *
  generalize (b : ℝ) = b at *
  exact Rbd.close hab' hax' hbx' y0' y1' hB' hX' hyn r1 r2 r3 r4 r5 r6 r7 r8

/-- C145, the part that holds for couplings and reflectivities (bounds 0 and 1): the data is represented up to single precision of 1, within
the bounds and never `nan`, and small ratios up to a fraction of a thousandth. -/
theorem C145_ratio_partial {m : Libt} (hm : AccurateT m) (x : ℚ) (hb : Binary32 x) (hx : boundedAcceptsR fl32 0 1 x) :
    ∃ v, boundedValueR fl fl32 m 0 1 (inverseSigmoidR fl fl32 m 0 1 x) = some v ∧ 0 ≤ v ∧ v ≤ 1 ∧ Binary32 v ∧
      |(v : ℝ) - x| ≤ 1 / 2 ^ 18 ∧ |(v : ℝ) - x| ≤ (x : ℝ) / 2 ^ 11 + 1 / 2 ^ 118 := by
  obtain ⟨-, hax, hbx⟩ := hx
  push Not at hax hbx
  have e0 : fl32 0 = 0 := fl32_zero
  have e1 : fl32 1 = 1 := fl32_of Rbd.binary32_one
  have e2 : fl32 (fl (1 - 0)) = 1 := by decide +kernel
  rw [e0] at hax
  rw [e1] at hbx
  have es : scaledR fl fl32 0 1 x = x := by
    unfold scaledR
    rw [e2, e0, sub_zero, div_one, fl32_of hb, fl32_of hb]
  have hw : inverseSigmoidR fl fl32 m 0 1 x = weightOfScaledR fl32 m x := by
    unfold inverseSigmoidR
    rw [if_neg (by rw [e2]; norm_num), es]
  have hsome : ∃ y, sigmoidR m (weightOfScaledR fl32 m x) = some y := by
    unfold weightOfScaledR
    by_cases h0 : x = 0 ∨ 2 ^ 128 ≤ fl32 (1 / x)
    · rw [if_pos h0]
      exact ⟨_, rfl⟩
    rw [if_neg h0]
    push Not at h0
    have hx0 : 0 < x := lt_of_le_of_ne hax (Ne.symm h0.1)
    have h1 : 1 ≤ 1 / x := by rw [le_div_iff₀ hx0]; linarith
    have h2 : 0 ≤ fl32 (1 / x) - 1 := by
      have := fl32_mono h1
      rw [e1] at this
      linarith
    simp only
    rw [if_neg (not_lt.mpr (fl32_nonneg h2))]
    split <;> exact ⟨_, rfl⟩
  obtain ⟨y, hy⟩ := hsome
  obtain ⟨⟨y0, y1, yb⟩, h1, h2⟩ := Rbd.back hm hax hy
  refine ⟨y, ?_, y0, y1, yb, h1, h2⟩
  unfold boundedValueR
  rw [hw, hy, Option.map_some, e2, e0, one_mul, add_zero, fl32_of yb, fl32_of yb]

/-- C145: whatever its weight is trained to, a ratio stays between 0 and 1. -/
theorem C145_trained {m : Libt} (hm : AccurateT m) (w : ℚ) :
    ∃ v, boundedValueR fl fl32 m 0 1 (.num w) = some v ∧ 0 ≤ v ∧ v ≤ 1 ∧ Binary32 v ∧
      |(v : ℝ) - 1 / (1 + Real.exp (-w))| ≤ 1 / (1 + Real.exp (-w)) / 2 ^ 22 + 1 / 2 ^ 120 := by
  obtain ⟨y0, y1, yb, h⟩ := hm.2.1 w
  refine ⟨m.sigmoid w, ?_, y0, y1, yb, h⟩
  show some (fl32 (fl32 (fl32 (fl (1 - 0)) * m.sigmoid w) + fl32 0)) = _
  rw [fl32_zero, show fl32 (fl (1 - 0)) = 1 by decide +kernel, one_mul, add_zero, fl32_of yb, fl32_of yb]

namespace Rbd

theorem root {m : Libt} (hm : AccurateT m) {x : ℚ} (h : 0 ≤ x) : |(m.sqrt x : ℝ) ^ 2 - x| ≤ (x : ℝ) / 2 ^ 21 := by
  obtain ⟨-, h1⟩ := hm.2.2 x h
  have hx : (0 : ℝ) ≤ x := by exact_mod_cast h
  have h2 := Real.sq_sqrt hx
  have h3 := Real.sqrt_nonneg (x : ℝ)
  have e : (m.sqrt x : ℝ) ^ 2 - x = ((m.sqrt x : ℝ) - √(x : ℝ)) * (((m.sqrt x : ℝ) - √(x : ℝ)) + 2 * √(x : ℝ)) := by
    linear_combination h2
  rw [e, abs_mul]
  have h4 : |(m.sqrt x : ℝ) - √(x : ℝ) + 2 * √(x : ℝ)| ≤ 3 * √(x : ℝ) := by
    refine (abs_add_le _ _).trans ?_
    rw [abs_of_nonneg (by positivity : 0 ≤ 2 * √(x : ℝ))]
    have : √(x : ℝ) / 2 ^ 23 ≤ √(x : ℝ) := div_le_self h3 (by norm_num)
    linarith
  refine (mul_le_mul h1 h4 (abs_nonneg _) (by positivity)).trans ?_
  have e2 : √(x : ℝ) / 2 ^ 23 * (3 * √(x : ℝ)) = 3 / 2 ^ 23 * (x : ℝ) := by
    linear_combination 3 / 2 ^ 23 * h2
  have e3 : (x : ℝ) / 2 ^ 21 = 4 / 2 ^ 23 * x := by norm_num; ring
  rw [e2, e3]
  exact mul_le_mul_of_nonneg_right (by norm_num) hx

end Rbd

/-- C145: a coupler (or mirror) splits power as its coupling says, up to single precision, whatever value it was trained to. -/
theorem C145_split {m : Libt} (hm : AccurateT m) (x : ℚ) (h0 : 0 ≤ x) (h1 : x ≤ 1) :
    |((splitR fl32 m x).2 : ℝ) ^ 2 - x| ≤ (x : ℝ) / 2 ^ 21 ∧ |((splitR fl32 m x).1 : ℝ) ^ 2 - (1 - x)| ≤ (1 - x : ℝ) / 2 ^ 20 + 1 / 2 ^ 149 ∧
      |((splitR fl32 m x).1 : ℝ) ^ 2 + ((splitR fl32 m x).2 : ℝ) ^ 2 - 1| ≤ 1 / 2 ^ 19 := by
  have ha := Rbd.root hm h0
  have hb := Rbd.root hm (fl32_nonneg (by linarith : 0 ≤ 1 - x))
  have hr := Rwv.fl32_real (1 - x)
  have h0' : (0 : ℝ) ≤ x := by exact_mod_cast h0
  have h1' : (x : ℝ) ≤ 1 := by exact_mod_cast h1
  have e : ((1 - x : ℚ) : ℝ) = 1 - x := by push_cast; rfl
  rw [e, abs_of_nonneg (by linarith : (0 : ℝ) ≤ 1 - x)] at hr
  have hn : (0 : ℝ) ≤ ((fl32 (1 - x) : ℚ) : ℝ) := by exact_mod_cast fl32_nonneg (by linarith : 0 ≤ 1 - x)
  change |((splitR fl32 m x).2 : ℝ) ^ 2 - x| ≤ _ at ha
  change |((splitR fl32 m x).1 : ℝ) ^ 2 - _| ≤ _ at hb
  generalize ((splitR fl32 m x).1 : ℝ) ^ 2 = T at *
  generalize ((splitR fl32 m x).2 : ℝ) ^ 2 = K at *
  generalize ((fl32 (1 - x) : ℚ) : ℝ) = r at *
  generalize (x : ℝ) = X at *
  have ht := abs_sub_le T r (1 - X)
  obtain ⟨a1, a2⟩ := abs_le.mp hr
  have hT : |T - (1 - X)| ≤ (1 - X) / 2 ^ 20 + 1 / 2 ^ 149 := by
    refine ht.trans ?_
    norm_num at *
    linarith
  refine ⟨ha, hT, ?_⟩
  have e2 : T + K - 1 = (T - (1 - X)) + (K - X) := by ring
  rw [e2]
  refine (abs_add_le _ _).trans ((add_le_add hT ha).trans ?_)
  norm_num
  linarith

/-- C145: the coupler that is built transmits and couples the power that was asked for, up to single precision. -/
theorem C145_coupler {m : Libt} (hm : AccurateT m) (x : ℚ) (hb : Binary32 x) (hx : boundedAcceptsR fl32 0 1 x) :
    ∃ v, boundedValueR fl fl32 m 0 1 (inverseSigmoidR fl fl32 m 0 1 x) = some v ∧
      |((splitR fl32 m v).2 : ℝ) ^ 2 - x| ≤ 1 / 2 ^ 17 ∧ |((splitR fl32 m v).1 : ℝ) ^ 2 - (1 - x)| ≤ 1 / 2 ^ 17 := by
  obtain ⟨v, hv, v0, v1, -, hn, -⟩ := C145_ratio_partial hm x hb hx
  obtain ⟨h1, h2, -⟩ := C145_split hm v v0 v1
  have v0' : (0 : ℝ) ≤ v := by exact_mod_cast v0
  have v1' : (v : ℝ) ≤ 1 := by exact_mod_cast v1
  refine ⟨v, hv, ?_, ?_⟩
  · have := abs_sub_le (((splitR fl32 m v).2 : ℝ) ^ 2) v x
    norm_num at *
    linarith
  · have := abs_sub_le (((splitR fl32 m v).1 : ℝ) ^ 2) (1 - v) (1 - x)
    have e : |(1 - (v : ℝ)) - (1 - x)| = |(v : ℝ) - x| := by rw [← abs_neg]; congr 1; ring
    rw [e] at this
    have c : (1 - v : ℝ) / 2 ^ 20 + 1 / 2 ^ 149 ≤ 1 / 2 ^ 19 := by
      norm_num
      linarith
    have c2 : (1 : ℝ) / 2 ^ 19 + 1 / 2 ^ 18 ≤ 1 / 2 ^ 17 := by norm_num
    linarith

/-- Accurate functions exist. -/
theorem exists_accurateT : ∃ m, AccurateT m := by
  have near : ∀ (x e : ℝ), 0 < e → ∃ q : ℚ, x ≤ q ∧ (q : ℝ) ≤ x + e := by
    intro x e he
    obtain ⟨q, h1, h2⟩ := exists_rat_btwn (show x < x + e by linarith)
    exact ⟨q, h1.le, h2.le⟩
  have hl : ∀ d : ℚ, ∃ q : ℚ, 0 < d → |(q : ℝ) - Real.log d| ≤ |Real.log d| / 2 ^ 22 := by
    intro d
    by_cases h : |Real.log d| = 0
    · exact ⟨0, fun _ => by rw [abs_eq_zero] at h; rw [h]; norm_num⟩
    · have hp : 0 < |Real.log d| := lt_of_le_of_ne (abs_nonneg _) (Ne.symm h)
      obtain ⟨q, h1, h2⟩ := near (Real.log d) (|Real.log d| / 2 ^ 22) (by positivity)
      exact ⟨q, fun _ => by rw [abs_le]; constructor <;> linarith⟩
  have hs : ∀ w : ℚ, ∃ q : ℚ, 0 ≤ q ∧ q ≤ 1 ∧ Binary32 q ∧
      |(q : ℝ) - 1 / (1 + Real.exp (-w))| ≤ 1 / (1 + Real.exp (-w)) / 2 ^ 22 + 1 / 2 ^ 120 := by
    intro w
    have hY0 : 0 < 1 / (1 + Real.exp (-w)) := by positivity
    have hY1 : 1 / (1 + Real.exp (-w)) ≤ 1 := div_le_one_of_le₀ (by linarith [Real.exp_pos (-(w : ℝ))]) (by positivity)
    generalize 1 / (1 + Real.exp (-(w : ℝ))) = Y at *
    obtain ⟨q, h1, h2⟩ := near Y (Y / 2 ^ 30) (by positivity)
    have hq0 : 0 ≤ min q 1 := by
      refine le_min ?_ zero_le_one
      have : (0 : ℝ) ≤ q := hY0.le.trans h1
      exact_mod_cast this
    have hm1 : |((min q 1 : ℚ) : ℝ) - Y| ≤ Y / 2 ^ 30 := by
      rw [Rat.cast_min, Rat.cast_one, abs_le]
      have : 0 ≤ Y / 2 ^ 30 := by positivity
      rcases min_cases (q : ℝ) 1 with ⟨e, -⟩ | ⟨e, e2⟩ <;> rw [e] <;> constructor <;> linarith
    refine ⟨fl32 (min q 1), fl32_nonneg hq0, ?_, fl32_binary _, ?_⟩
    · have := fl32_mono (min_le_right q 1)
      rwa [fl32_of Rbd.binary32_one] at this
    · have hr := Rwv.fl32_real (min q 1)
      rw [abs_of_nonneg (by exact_mod_cast hq0 : (0 : ℝ) ≤ ((min q 1 : ℚ) : ℝ))] at hr
      generalize ((fl32 (min q 1) : ℚ) : ℝ) = f at *
      generalize ((min q 1 : ℚ) : ℝ) = g at *
      have ht := abs_sub_le f g Y
      have := (abs_le.mp hm1).2
      norm_num at *
      linarith
  have hr : ∀ x : ℚ, ∃ q : ℚ, 0 ≤ x → 0 ≤ q ∧ |(q : ℝ) - √(x : ℝ)| ≤ √(x : ℝ) / 2 ^ 23 := by
    intro x
    rcases (Real.sqrt_nonneg (x : ℝ)).eq_or_lt with h | h
    · exact ⟨0, fun _ => ⟨le_rfl, by rw [← h]; norm_num⟩⟩
    · obtain ⟨q, h1, h2⟩ := near √(x : ℝ) (√(x : ℝ) / 2 ^ 23) (by positivity)
      exact ⟨q, fun _ => ⟨by exact_mod_cast h.le.trans h1, by rw [abs_le]; constructor <;> linarith [div_pos h (by positivity : (0 : ℝ) < 2 ^ 23)]⟩⟩
  choose l hl using hl
  choose g hg using hs
  choose r hr using hr
  exact ⟨⟨l, g, r⟩, hl, hg, hr⟩

/-- Not vacuous: accurate functions exist, and the usual couplings are accepted; general bounds too, with a weight that is not `nan`. -/
example : ∃ m, AccurateT m ∧ boundedAcceptsR fl32 0 1 (fl32 (1 / 10)) ∧ boundedAcceptsR fl32 0 1 0 ∧ boundedAcceptsR fl32 0 1 1 ∧
    ¬ boundedAcceptsR fl32 0 1 2 ∧ boundedAcceptsR fl32 (-2) (fl (1 / 10)) (fl32 (-1 / 3)) ∧
    ∃ v, boundedValueR fl fl32 m (-2) (fl (1 / 10)) (inverseSigmoidR fl fl32 m (-2) (fl (1 / 10)) (fl32 (-1 / 3))) = some v := by
  obtain ⟨m, hm⟩ := exists_accurateT
  refine ⟨m, hm, by unfold boundedAcceptsR; decide +kernel, by unfold boundedAcceptsR; decide +kernel, by unfold boundedAcceptsR; decide +kernel,
    by unfold boundedAcceptsR; decide +kernel, by unfold boundedAcceptsR; decide +kernel, ?_⟩
  unfold inverseSigmoidR
  rw [if_neg (by decide +kernel)]
  unfold weightOfScaledR
  rw [if_neg (by decide +kernel)]
  simp only
  rw [if_neg (by decide +kernel), if_neg (by decide +kernel)]
  exact ⟨_, rfl⟩

/-- The ratio one half is represented exactly up to the sigmoid of zero: its weight is (up to the sign) the logarithm of one. -/
example {m : Libt} : inverseSigmoidR fl fl32 m 0 1 (1 / 2) = .num (-m.log 1) := by
  unfold inverseSigmoidR
  rw [if_neg (by decide +kernel)]
  unfold weightOfScaledR
  rw [if_neg (by decide +kernel)]
  simp only
  rw [if_neg (by decide +kernel), if_neg (by decide +kernel), show fl32 (fl32 (1 / scaledR fl fl32 0 1 (1 / 2)) - 1) = 1 by decide +kernel]

end PT
