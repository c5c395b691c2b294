import Verif.Proof.RoundedMzi
import Verif.Props.RoundedWave

/-!
# C147: Mzis in floating-point arithmetic
-/

namespace PT
open Spec

/-- C147. What is computed for an Mzi is its matrix, up to single precision and `2 ^ -46` of the phase light picks up in its arms. -/
theorem C147_mzi {m : Libm} (hm : Accurate m) (phi theta length loss neff wl0 ng wl : ℚ) (h : Usual length loss neff wl0 ng wl)
    (hphi : |phi| ≤ 500) (ht : |theta| ≤ 1000) (i j : Fin 4) :
    ‖computed (mziR fl fl32 m phi theta length neff wl0 ng wl) i j - mziBetween (armPhase length neff wl0 ng wl) phi theta i j‖ ≤
      turn (waveguideOf length loss neff wl0 ng 0) wl / 2 ^ 47 + 1 / 2 ^ 19 := by
  obtain ⟨k, hk⟩ := Rmz.phi0_near h
  obtain ⟨l, hl, h1⟩ := Rwv.phase_near h phi hphi
  have hX : 2 * Real.pi * (neff + (wl0 - wl) * (ng - neff) / wl0) * length / wl = armPhase length neff wl0 ng wl := rfl
  rw [hX] at hl
  have hp1 : phaseR fl length neff wl0 ng phi wl = fl (phi0R fl length neff wl0 ng wl + phi) := rfl
  rw [hp1] at hl h1
  have ht0 : turn (waveguideOf length loss neff wl0 ng phi) (wl : ℝ) = turn (waveguideOf length loss neff wl0 ng 0) wl := rfl
  rw [ht0] at hl
  have h0 : |phi0R fl length neff wl0 ng wl| ≤ 1000 := by
    obtain ⟨a, b⟩ := Rmz.phi0_size length neff wl0 ng wl
    rw [abs_of_nonneg a]
    linarith
  have t5 : 0 ≤ turn (waveguideOf length loss neff wl0 ng 0) wl := by
    have h1 : (0 : ℝ) ≤ length := by exact_mod_cast h.length_ok.1
    have h2 : (0 : ℝ) ≤ wl := by exact_mod_cast (le_trans (by norm_num) h.wl_ok.1 : (0 : ℚ) ≤ wl)
    unfold turn waveguideOf
    positivity
  obtain ⟨c0, s0⟩ := hm.1 _ h0
  obtain ⟨c1, s1⟩ := hm.1 _ h1
  obtain ⟨δ, hδ⟩ : ∃ δ : ℝ, δ = turn (waveguideOf length loss neff wl0 ng 0) wl / 2 ^ 48 + 1 / 2 ^ 41 + 1 / 2 ^ 52 := ⟨_, rfl⟩
  have cosNear : ∀ (p X : ℝ) (c : ℝ) (n : ℤ), |p - (X - n * (2 * Real.pi))| ≤ turn (waveguideOf length loss neff wl0 ng 0) wl / 2 ^ 48 + 1 / 2 ^ 41 →
      |c - Real.cos p| ≤ 1 / 2 ^ 52 → |c - Real.cos X| ≤ δ := fun p X c n a b => by
    have h1 := Real.abs_cos_sub_cos_le p (X - n * (2 * Real.pi))
    rw [Real.cos_sub_int_mul_two_pi] at h1
    have h2 := abs_sub_le c (Real.cos p) (Real.cos X)
    linarith
  have sinNear : ∀ (p X : ℝ) (c : ℝ) (n : ℤ), |p - (X - n * (2 * Real.pi))| ≤ turn (waveguideOf length loss neff wl0 ng 0) wl / 2 ^ 48 + 1 / 2 ^ 41 →
      |c - Real.sin p| ≤ 1 / 2 ^ 52 → |c - Real.sin X| ≤ δ := fun p X c n a b => by
    have h1 := Real.abs_sin_sub_sin_le p (X - n * (2 * Real.pi))
    rw [Real.sin_sub_int_mul_two_pi] at h1
    have h2 := abs_sub_le c (Real.sin p) (Real.sin X)
    linarith
  have := Rmz.mzi_of hm (δ := δ) (by rw [hδ]; positivity) ht h0 h1 (cosNear _ _ _ k hk c0) (sinNear _ _ _ k hk s0) (cosNear _ _ _ l hl c1)
    (sinNear _ _ _ l hl s1) i j
  refine this.trans ?_
  rw [hδ]
  have e : (2 : ℝ) * (1 / 2 ^ 41 + 1 / 2 ^ 52 + 1 / 2 ^ 21) ≤ 1 / 2 ^ 19 := by norm_num
  have e2 : 2 * (turn (waveguideOf length loss neff wl0 ng 0) (wl : ℝ) / 2 ^ 48) = turn (waveguideOf length loss neff wl0 ng 0) wl / 2 ^ 47 := by ring
  linarith

/-- C147 in full, but for the bounds: an Mzi does not amplify. -/
def C147_statement (m : Libm) : Prop := ∀ phi theta length neff wl0 ng wl : ℚ, Usual length 0 neff wl0 ng wl → |phi| ≤ 500 → |theta| ≤ 1000 →
  ∀ v : Fin 4 → ℂ, power ((computed (mziR fl fl32 m phi theta length neff wl0 ng wl)).mulVec v) ≤ power v

/-- C147, the part that holds: the amplitude that leaves an Mzi is the one that enters, up to single precision, however long the arms are and
however wrong the phases. -/
theorem C147_power_partial {m : Libm} (hm : Accurate m) (phi theta length neff wl0 ng wl : ℚ) (hphi : |phi| ≤ 500) (ht : |theta| ≤ 1000)
    (v : Fin 4 → ℂ) :
    |√(power ((computed (mziR fl fl32 m phi theta length neff wl0 ng wl)).mulVec v)) - √(power v)| ≤ 1 / 2 ^ 17 * √(power v) := by
  have h0 : |phi0R fl length neff wl0 ng wl| ≤ 1000 := by
    obtain ⟨a, b⟩ := Rmz.phi0_size length neff wl0 ng wl
    rw [abs_of_nonneg a]
    linarith
  have h1 := Rmz.phi1_size hphi length neff wl0 ng wl
  obtain ⟨c0, s0⟩ := hm.1 _ h0
  obtain ⟨c1, s1⟩ := hm.1 _ h1
  have hxy : ((phi0R fl length neff wl0 ng wl : ℚ) : ℝ) +
      (((fl (phi0R fl length neff wl0 ng wl + phi) : ℚ) : ℝ) - ((phi0R fl length neff wl0 ng wl : ℚ) : ℝ)) =
      ((fl (phi0R fl length neff wl0 ng wl + phi) : ℚ) : ℝ) := by ring
  have near := Rmz.mzi_of hm (phi := phi) (theta := theta) (x := ((phi0R fl length neff wl0 ng wl : ℚ) : ℝ))
    (y := ((fl (phi0R fl length neff wl0 ng wl + phi) : ℚ) : ℝ) - ((phi0R fl length neff wl0 ng wl : ℚ) : ℝ)) (δ := 1 / 2 ^ 52)
    (by positivity) ht h0 h1 c0 s0 (by rw [hxy]; exact c1) (by rw [hxy]; exact s1)
  refine (Rmz.near_power near v (Rmz.exact_power _ _ _ v)).trans (mul_le_mul_of_nonneg_right ?_ (Real.sqrt_nonneg _))
  norm_num

/-- C147 is refuted: the cosine of a small `theta` is rounded to 1, while its sine is not rounded to 0. -/
theorem C147_violation {m : Libm} (hm : Accurate m) : ¬ C147_statement m := by
  intro H
  have h := H 0 (1 / 8192) 0 2 1 2 1 (by constructor <;> norm_num) (by norm_num) (by norm_num [abs_of_pos]) (fun k => if k = 0 then 1 else 0)
  have hp0 : phi0R fl 0 2 1 2 1 = 0 := by decide +kernel
  have hp1 : fl (phi0R fl 0 2 1 2 1 + 0) = 0 := by decide +kernel
  obtain ⟨z1, -⟩ := hm.1 0 (by norm_num)
  rw [Rat.cast_zero, Real.cos_zero] at z1
  have hcos0 : fl32 (m.cos 0) = 1 := by
    refine Rwv.fl32_one ?_
    have h2 : |((m.cos 0 - 1 : ℚ) : ℝ)| < ((1 / 2 ^ 25 : ℚ) : ℝ) := by
      push_cast
      exact z1.trans_lt (by norm_num)
    exact_mod_cast h2
  obtain ⟨hc, hs⟩ := hm.1 (1 / 8192) (by norm_num [abs_of_pos])
  have ex : (((1 / 8192 : ℚ)) : ℝ) = 1 / 8192 := by norm_num
  rw [ex] at hc hs
  have c1 := Real.one_sub_sq_div_two_le_cos (x := 1 / 8192)
  have c2 := Real.cos_le_one (1 / 8192)
  have s1 := Real.sin_gt_sub_cube (x := 1 / 8192) (by norm_num)
  have hcos : fl32 (m.cos (1 / 8192)) = 1 := by
    refine Rwv.fl32_one ?_
    have h2 : |((m.cos (1 / 8192) - 1 : ℚ) : ℝ)| < ((1 / 2 ^ 25 : ℚ) : ℝ) := by
      push_cast
      obtain ⟨a1, a2⟩ := abs_le.mp hc
      rw [abs_lt]
      constructor <;> norm_num at * <;> linarith
    exact_mod_cast h2
  have hsin : 1 / 2 ^ 15 ≤ fl32 (m.sin (1 / 8192)) := by
    have h2 : (1 / 2 ^ 15 : ℚ) ≤ m.sin (1 / 8192) := by
      have : ((1 / 2 ^ 15 : ℚ) : ℝ) ≤ ((m.sin (1 / 8192) : ℚ) : ℝ) := by
        push_cast
        obtain ⟨a1, a2⟩ := abs_le.mp hs
        norm_num at *
        linarith
      exact_mod_cast this
    have h3 := fl32_mono h2
    rwa [show fl32 (1 / 2 ^ 15) = 1 / 2 ^ 15 by decide +kernel] at h3
  have hin : power (fun k : Fin 4 => if k = 0 then (1 : ℂ) else 0) = 1 := by
    unfold power
    rw [Fin.sum_univ_four]
    simp
  have hout : ∀ i, (computed (mziR fl fl32 m 0 (1 / 8192) 0 2 1 2 1)).mulVec (fun k : Fin 4 => if k = 0 then (1 : ℂ) else 0) i =
      computed (mziR fl fl32 m 0 (1 / 8192) 0 2 1 2 1) i 0 := fun i => by
    unfold Matrix.mulVec dotProduct
    rw [Fin.sum_univ_four]
    simp
  have e1 : (computed (mziR fl fl32 m 0 (1 / 8192) 0 2 1 2 1) 1 0).re = 1 := by
    show (((fl32 (fl32 (m.cos (fl (phi0R fl 0 2 1 2 1 + 0))) * fl32 (m.cos (1 / 8192)))) : ℚ) : ℝ) = 1
    rw [hp1, hcos0, hcos, mul_one, show fl32 1 = 1 by decide +kernel, Rat.cast_one]
  have e2 : (computed (mziR fl fl32 m 0 (1 / 8192) 0 2 1 2 1) 2 0).re = ((fl32 (m.sin (1 / 8192)) : ℚ) : ℝ) := by
    show (((fl32 (fl32 (m.cos (fl (phi0R fl 0 2 1 2 1 + 0))) * fl32 (m.sin (1 / 8192)))) : ℚ) : ℝ) = _
    rw [hp1, hcos0, one_mul, fl32_of (fl32_binary _)]
  rw [hin] at h
  unfold power at h
  rw [Fin.sum_univ_four, hout, hout, hout, hout] at h
  have n0 := Complex.normSq_nonneg (computed (mziR fl fl32 m 0 (1 / 8192) 0 2 1 2 1) 0 0)
  have n3 := Complex.normSq_nonneg (computed (mziR fl fl32 m 0 (1 / 8192) 0 2 1 2 1) 3 0)
  have n1 := Complex.re_sq_le_normSq (computed (mziR fl fl32 m 0 (1 / 8192) 0 2 1 2 1) 1 0)
  have n2 := Complex.re_sq_le_normSq (computed (mziR fl fl32 m 0 (1 / 8192) 0 2 1 2 1) 2 0)
  rw [e1] at n1
  rw [e2] at n2
  have h5 : (1 / 2 ^ 15 : ℝ) ≤ ((fl32 (m.sin (1 / 8192)) : ℚ) : ℝ) := by
    have := (Rat.cast_le (K := ℝ)).mpr hsin
    push_cast at this
    exact this
  have : (0 : ℝ) < 1 / 2 ^ 15 := by positivity
  nlinarith

/-- Not vacuous: the Mzi with the default arguments. -/
example : ∃ m, Accurate m ∧ Usual (1 / 10 ^ 5) 0 (234 / 100) (155 / 10 ^ 8) (34 / 10) (155 / 10 ^ 8) ∧ |(0 : ℚ)| ≤ 500 ∧ |npPi / 4| ≤ 1000 := by
  obtain ⟨m, hm⟩ := exists_accurate
  refine ⟨m, hm, ?_, by norm_num, by unfold npPi; norm_num [abs_of_pos]⟩
  constructor <;> norm_num [abs_of_pos]

/-- The exact matrix is a beam splitter with a phase shift: light from port 0 leaves ports 1 and 2 in parts that depend on `theta`. -/
example : power (fun i => mziBetween 0 1 0 i 0 - if i = 1 then Complex.exp ((1 : ℝ) * Complex.I) else 0) = 0 := by
  unfold power mziBetween
  rw [Fin.sum_univ_four]
  simp

/-- C147. Light that is scattered by one Mzi after the other, however many. -/
theorem C147_chain {m : Libm} (hm : Accurate m) (Ms : List (Matrix (Fin 4) (Fin 4) ℂ))
    (hMs : ∀ M ∈ Ms, ∃ phi theta length neff wl0 ng wl : ℚ, |phi| ≤ 500 ∧ |theta| ≤ 1000 ∧
      M = computed (mziR fl fl32 m phi theta length neff wl0 ng wl)) (v : Fin 4 → ℂ) :
    (1 - 1 / 2 ^ 17) ^ Ms.length * √(power v) ≤ √(power (Ms.foldl (fun u M => M.mulVec u) v)) ∧
      √(power (Ms.foldl (fun u M => M.mulVec u) v)) ≤ (1 + 1 / 2 ^ 17) ^ Ms.length * √(power v) := by
  induction Ms generalizing v with
  | nil => simp
  | cons M Ms ih =>
    obtain ⟨phi, theta, length, neff, wl0, ng, wl, h1, h2, rfl⟩ := hMs M (List.mem_cons_self ..)
    obtain ⟨a, b⟩ := abs_le.mp (C147_power_partial hm phi theta length neff wl0 ng wl h1 h2 v)
    obtain ⟨c, d⟩ := ih (fun M hM => hMs M (List.mem_cons_of_mem _ hM)) ((computed (mziR fl fl32 m phi theta length neff wl0 ng wl)).mulVec v)
    rw [List.foldl_cons, List.length_cons]
    have e0 : (0 : ℝ) ≤ 1 - 1 / 2 ^ 17 := by norm_num
    have p0 : (0 : ℝ) ≤ (1 - 1 / 2 ^ 17) ^ Ms.length := pow_nonneg e0 _
    have p1 : (0 : ℝ) ≤ (1 + 1 / 2 ^ 17) ^ Ms.length := by positivity
    constructor
    · refine le_trans ?_ c
      rw [pow_succ _ Ms.length, mul_assoc]
      exact mul_le_mul_of_nonneg_left (by linarith) p0
    · refine d.trans ?_
      rw [pow_succ _ Ms.length, mul_assoc]
      exact mul_le_mul_of_nonneg_left (by linarith) p1

/-- In `C147_chain`, a thousand Mzis lose or win less than one percent of the amplitude. -/
example : (1 + 1 / 2 ^ 17 : ℝ) ^ 1000 ≤ 1 + 1 / 100 ∧ (1 - 1 / 100 : ℝ) ≤ (1 - 1 / 2 ^ 17) ^ 1000 := by
  constructor
  · have h : (1 + 1 / 2 ^ 17 : ℝ) ^ 10 ≤ 1 + 8 / 10 ^ 5 := by norm_num
    calc (1 + 1 / 2 ^ 17 : ℝ) ^ 1000 = ((1 + 1 / 2 ^ 17 : ℝ) ^ 10) ^ 100 := by rw [← pow_mul]
      _ ≤ (1 + 8 / 10 ^ 5) ^ 100 := pow_le_pow_left₀ (by positivity) h _
      _ ≤ 1 + 1 / 100 := by norm_num
  · have := one_add_mul_le_pow (show (-2 : ℝ) ≤ -(1 / 2 ^ 17) by norm_num) 1000
    have e : (1 : ℝ) + -(1 / 2 ^ 17) = 1 - 1 / 2 ^ 17 := by ring
    rw [e] at this
    refine le_trans ?_ this
    norm_num

end PT
