import Verif.Proof.Steps
import Verif.Props.Tolerance

/-! C156: Circuits whose lengths are not quite what they should be. -/

namespace PT
open Spec Matrix

variable {W : Type} {cs : List Conn}

namespace Tol

theorem damping_near {l l' a a' : ℝ} (h : 0 ≤ a * l) (h' : 0 ≤ a' * l') :
    ‖(lossFactor a' l' : ℂ) - lossFactor a l‖ ≤ Real.log 10 / 20 * |a' * l' - a * l| ∧ ‖(lossFactor a l : ℂ)‖ ≤ 1 := by
  have hlog : 0 < Real.log 10 := Real.log_pos (by norm_num)
  have e : ∀ a l, lossFactor a l = Real.exp (-(Real.log 10 / 20 * (a * l))) := by
    intro a l
    unfold lossFactor
    rw [Real.rpow_def_of_pos (by norm_num)]
    congr 1
    ring
  constructor
  · rw [← Complex.ofReal_sub, Complex.norm_real, e, e]
    refine (decay_near (by positivity) (by positivity)).trans (le_of_eq ?_)
    rw [← mul_sub, abs_mul, abs_of_nonneg (by positivity)]
  · rw [Complex.norm_real, e, Real.norm_eq_abs, abs_of_pos (Real.exp_pos _)]
    exact Real.exp_le_one_iff.2 (neg_nonpos.2 (by positivity))

theorem optical_diff (l l' neff neff' wl0 wl0' ng ng' wl : ℝ) :
    |2 * Real.pi * neffAt neff' wl0' ng' wl * l' / wl - 2 * Real.pi * neffAt neff wl0 ng wl * l / wl| =
      2 * Real.pi * |opticalLength l' neff' wl0' ng' wl - opticalLength l neff wl0 ng wl| / |wl| := by
  have e : 2 * Real.pi * neffAt neff' wl0' ng' wl * l' / wl - 2 * Real.pi * neffAt neff wl0 ng wl * l / wl =
      2 * Real.pi * (opticalLength l' neff' wl0' ng' wl - opticalLength l neff wl0 ng wl) / wl := by
    unfold neffAt opticalLength
    ring
  rw [e, abs_div, abs_mul, abs_of_pos (by positivity : 0 < 2 * Real.pi)]

end Tol

/-- C156. How much the matrices of waveguides and Mzis change with all of their parameters, lengths and indices included; and when the
delays in time steps stay the same. -/
theorem C156_components (wl : W → ℝ) (δ : ℝ) :
    (∀ length length' loss loss' neff neff' wl0 wl0' ng ng' phase phase' : ℝ, 0 ≤ loss * length → 0 ≤ loss' * length' →
      (∀ w, |phase' - phase| + 2 * Real.pi * |opticalLength length' neff' wl0' ng' (wl w) - opticalLength length neff wl0 ng (wl w)| / |wl w| +
        Real.log 10 / 20 * |loss' * length' - loss * length| ≤ δ) →
      Looks δ wl (.waveguide length loss neff wl0 ng phase) (.waveguide length' loss' neff' wl0' ng' phase')) ∧
    (∀ phi phi' theta theta' neff neff' ng ng' wl0 wl0' length length' loss loss' : ℝ,
      (∀ w, |phi' - phi| + |theta' - theta| +
        2 * Real.pi * |opticalLength length' neff' wl0' ng' (wl w) - opticalLength length neff wl0 ng (wl w)| / |wl w| ≤ δ) →
      Looks δ wl (.mzi phi theta neff ng wl0 length loss) (.mzi phi' theta' neff' ng' wl0' length' loss')) ∧
    ∀ v dt length length' loss loss' neff neff' wl0 wl0' ng ng' phase phase' phi phi' : ℝ, SameSteps dt (ng * length / v) (ng' * length' / v) →
      SameSteps dt (Part.delay v (.waveguide length loss neff wl0 ng phase)) (Part.delay v (.waveguide length' loss' neff' wl0' ng' phase')) ∧
      SameSteps dt (Part.delay v (.mzi phi phase neff ng wl0 length loss)) (Part.delay v (.mzi phi' phase' neff' ng' wl0' length' loss')) := by
  refine ⟨?_, ?_, fun v dt length length' loss loss' neff neff' wl0 wl0' ng ng' phase phase' phi phi' h => ⟨h, h⟩⟩
  · intro length length' loss loss' neff neff' wl0 wl0' ng ng' phase phase' h1 h2 hδ
    refine ⟨rfl, rfl, fun w i j hi hj hi' hj' => ?_⟩
    have e := congrFun (congrFun (waveguide_entry length loss neff wl0 ng phase (wl w)) ⟨i, hi⟩) ⟨j, hj⟩
    have e' := congrFun (congrFun (waveguide_entry length' loss' neff' wl0' ng' phase' (wl w)) ⟨i, hi'⟩) ⟨j, hj'⟩
    have hn := Tol.optical_diff length length' neff neff' wl0 wl0' ng ng' (wl w)
    obtain ⟨x, hx⟩ : ∃ x, x = 2 * Real.pi * neffAt neff wl0 ng (wl w) * length / wl w := ⟨_, rfl⟩
    obtain ⟨y, hy⟩ : ∃ y, y = 2 * Real.pi * neffAt neff' wl0' ng' (wl w) * length' / wl w := ⟨_, rfl⟩
    rw [← hx] at e hn
    rw [← hy] at e' hn
    have hδ := hδ w
    rw [← hn] at hδ
    obtain ⟨l1, l3⟩ := Tol.damping_near h1 h2
    have hlog : 0 < Real.log 10 := Real.log_pos (by norm_num)
    have hz : ‖(0 : ℂ) - 0‖ ≤ δ := by
      rw [sub_zero, norm_zero]
      exact le_trans (by positivity) hδ
    refine le_of_eq_of_le (congrArg₂ (fun a b => ‖a - b‖) e' e) (Tol.cross2_near hz ?_ hz _ _)
    have h5 := Tol.mul_near (a' := (lossFactor loss' length' : ℂ)) (b := Complex.exp ((x + phase : ℝ) * Complex.I)) l3 (Tol.turn_one (y + phase'))
    have h6 := Sens.turn_diff (x + phase) (y + phase')
    have h7 : |y + phase' - (x + phase)| ≤ |y - x| + |phase' - phase| := by
      rw [show y + phase' - (x + phase) = (y - x) + (phase' - phase) by ring]
      exact abs_add_le _ _
    linarith
  · intro phi phi' theta theta' neff neff' ng ng' wl0 wl0' length length' loss loss' hδ
    refine ⟨rfl, rfl, fun w i j hi hj hi' hj' => ?_⟩
    have e := congrFun (congrFun (mzi_entry phi theta length neff wl0 ng loss (wl w)) ⟨i, hi⟩) ⟨j, hj⟩
    have e' := congrFun (congrFun (mzi_entry phi' theta' length' neff' wl0' ng' loss' (wl w)) ⟨i, hi'⟩) ⟨j, hj'⟩
    have hn := Tol.optical_diff length length' neff neff' wl0 wl0' ng ng' (wl w)
    obtain ⟨x, hx⟩ : ∃ x, x = 2 * Real.pi * neffAt neff wl0 ng (wl w) * length / wl w := ⟨_, rfl⟩
    obtain ⟨y, hy⟩ : ∃ y, y = 2 * Real.pi * neffAt neff' wl0' ng' (wl w) * length' / wl w := ⟨_, rfl⟩
    rw [← hx, Tol.smul_cross4] at e
    rw [← hy, Tol.smul_cross4] at e'
    rw [← hx, ← hy] at hn
    have hδ := hδ w
    rw [← hn] at hδ
    have hc : ∀ t : ℝ, ‖(Real.cos t : ℂ)‖ ≤ 1 := fun t => by rw [Complex.norm_real]; exact Real.abs_cos_le_one t
    have hs : ∀ t : ℝ, ‖(Real.sin t : ℂ)‖ ≤ 1 := fun t => by rw [Complex.norm_real]; exact Real.abs_sin_le_one t
    have h6 := Sens.turn_diff x y
    have h7 := Sens.turn_diff phi phi'
    have h8 := Tol.cos_near theta theta'
    have h9 := Tol.sin_near theta theta'
    have ha := abs_nonneg (phi' - phi)
    have hpc : ∀ t : ℝ, ‖Complex.exp ((phi' : ℝ) * Complex.I) * (Real.cos t : ℂ)‖ ≤ 1 := fun t => by
      rw [norm_mul, Complex.norm_exp_ofReal_mul_I, one_mul]; exact hc t
    have hps : ∀ t : ℝ, ‖Complex.exp ((phi' : ℝ) * Complex.I) * (Real.sin t : ℂ)‖ ≤ 1 := fun t => by
      rw [norm_mul, Complex.norm_exp_ofReal_mul_I, one_mul]; exact hs t
    refine le_of_eq_of_le (congrArg₂ (fun a b => ‖a - b‖) e' e) (Tol.cross4_near (le_trans (by positivity) hδ) ?_ ?_ ?_ ?_ _ _)
    · have g1 := Tol.mul_near (a' := Complex.exp ((y : ℝ) * Complex.I)) (b := Complex.exp (phi * Complex.I) * Real.cos theta) (Tol.turn_one x) (hpc theta')
      have g2 := Tol.mul_near (a' := Complex.exp ((phi' : ℝ) * Complex.I)) (b := (Real.cos theta : ℂ)) (Tol.turn_one phi) (hc theta')
      linarith
    · have g1 := Tol.mul_near (a' := Complex.exp ((y : ℝ) * Complex.I)) (b := Complex.exp (phi * Complex.I) * Real.sin theta) (Tol.turn_one x) (hps theta')
      have g2 := Tol.mul_near (a' := Complex.exp ((phi' : ℝ) * Complex.I)) (b := (Real.sin theta : ℂ)) (Tol.turn_one phi) (hs theta')
      linarith
    · have g1 := Tol.mul_near (a' := Complex.exp ((y : ℝ) * Complex.I)) (b := -(Real.sin theta : ℂ)) (Tol.turn_one x)
        (by rw [norm_neg]; exact hs theta' : ‖-(Real.sin theta' : ℂ)‖ ≤ 1)
      rw [neg_sub_neg, norm_sub_rev (Real.sin theta : ℂ)] at g1
      linarith
    · have g1 := Tol.mul_near (a' := Complex.exp ((y : ℝ) * Complex.I)) (b := (Real.cos theta : ℂ)) (Tol.turn_one x) (hc theta')
      linarith

namespace Tol

theorem realistic_entry (length k0 n0 d1k d1n d2k d2n wl0 wl : ℝ) :
    scattering (.realisticCoupler length k0 n0 d1k d1n d2k d2n wl0) wl =
      (cross4 (Real.cos (couplingAngle length k0 n0 d1k d1n d2k d2n wl0 wl) : ℝ)
        (-(Real.sin (couplingAngle length k0 n0 d1k d1n d2k d2n wl0 wl) : ℝ) * Complex.I)
        (-(Real.sin (couplingAngle length k0 n0 d1k d1n d2k d2n wl0 wl) : ℝ) * Complex.I)
        (Real.cos (couplingAngle length k0 n0 d1k d1n d2k d2n wl0 wl) : ℝ) : Matrix (Fin 4) (Fin 4) ℂ) := by
  have e : k0 + d1k * (wl - wl0) + 0.5 * d2k * (wl - wl0) ^ 2 + Real.pi * (n0 + d1n * (wl - wl0) + 0.5 * d2n * (wl - wl0) ^ 2) / wl * length =
      couplingAngle length k0 n0 d1k d1n d2k d2n wl0 wl := by
    unfold couplingAngle
    ring
  show cx (realisticCouplerS length k0 n0 d1k d1n d2k d2n wl0 wl).re (realisticCouplerS length k0 n0 d1k d1n d2k d2n wl0 wl).im = _
  unfold realisticCouplerS
  simp only [e]
  generalize couplingAngle length k0 n0 d1k d1n d2k d2n wl0 wl = φ
  ext i j
  fin_cases i <;> fin_cases j <;> apply Complex.ext <;>
    simp [cx, SMat.setRe2, SMat.setIm2, SMat.setRe, SMat.setIm, SMat.zero, cross4, -Complex.ofReal_cos, -Complex.ofReal_sin]

theorem linearSoa_entry (a wl : ℝ) (i j : Fin 2) : scattering (.linearSoa a) wl i j = if i = 0 ∧ j = 1 then (a : ℂ) else 0 := by
  show cx (linearSoaS a).re (linearSoaS a).im i j = _
  fin_cases i <;> fin_cases j <;> apply Complex.ext <;> simp [cx, linearSoaS, SMat.setRe, SMat.zero]

theorem root_near {k k' : ℝ} (hk : 0 ≤ k ∧ k ≤ 1) (hk' : 0 ≤ k' ∧ k' ≤ 1) :
    ‖(⟨√(1 - k'), 0⟩ : ℂ) - ⟨√(1 - k), 0⟩‖ ≤ √|k' - k| ∧ ‖(⟨0, √k'⟩ : ℂ) - ⟨0, √k⟩‖ ≤ √|k' - k| ∧
      ‖(⟨√(1 - k), 0⟩ : ℂ)‖ ≤ 1 ∧ ‖(⟨0, √k⟩ : ℂ)‖ ≤ 1 := by
  have hre : ∀ a : ℝ, (⟨a, 0⟩ : ℂ) = (a : ℂ) := fun a => rfl
  have him : ∀ a : ℝ, (⟨0, a⟩ : ℂ) = (a : ℂ) * Complex.I := fun a => by apply Complex.ext <;> simp
  have h1 := sqrt_near hk.1 hk'.1
  have h2 := sqrt_near (sub_nonneg.2 hk.2) (sub_nonneg.2 hk'.2)
  rw [show 1 - k' - (1 - k) = -(k' - k) by ring, abs_neg] at h2
  rw [hre, hre, him, him, ← sub_mul, norm_mul, norm_mul, Complex.norm_I, mul_one, mul_one, ← Complex.ofReal_sub, ← Complex.ofReal_sub,
    Complex.norm_real, Complex.norm_real, Complex.norm_real, Complex.norm_real]
  refine ⟨h2, h1, ?_, ?_⟩
  · rw [Real.norm_eq_abs, abs_of_nonneg (Real.sqrt_nonneg _), Real.sqrt_le_one]
    linarith
  · rw [Real.norm_eq_abs, abs_of_nonneg (Real.sqrt_nonneg _), Real.sqrt_le_one]
    exact hk.2

end Tol

/-- C156. How much the matrices of the other components change with their parameters. -/
theorem C156_others (wl : W → ℝ) (δ : ℝ) (hδ : 0 ≤ δ) :
    (∀ length length' k k' loss loss' neff neff' wl0 wl0' ng ng' phase phase' : ℝ, 0 ≤ k ∧ k ≤ 1 → 0 ≤ k' ∧ k' ≤ 1 → 0 ≤ loss * length →
      0 ≤ loss' * length' → √|k' - k| + |phase' - phase| + Real.log 10 / 20 * |loss' * length' - loss * length| ≤ δ →
      Looks δ wl (.longCoupler length k loss neff wl0 ng phase) (.longCoupler length' k' loss' neff' wl0' ng' phase')) ∧
    (∀ length length' k0 k0' n0 n0' d1k d1k' d1n d1n' d2k d2k' d2n d2n' wl0 wl0' : ℝ,
      (∀ w, |couplingAngle length' k0' n0' d1k' d1n' d2k' d2n' wl0' (wl w) - couplingAngle length k0 n0 d1k d1n d2k d2n wl0 (wl w)| ≤ δ) →
      Looks δ wl (.realisticCoupler length k0 n0 d1k d1n d2k d2n wl0) (.realisticCoupler length' k0' n0' d1k' d1n' d2k' d2n' wl0')) ∧
    (∀ R R' Rin Rin' T T' bw wl0 : ℝ, 0 ≤ T → 0 ≤ T' → |R' - R| ≤ δ → |Rin' - Rin| ≤ δ → √|T' - T| ≤ δ →
      Looks δ wl (.grating R Rin T bw wl0) (.grating R' Rin' T' bw wl0)) ∧
    (∀ a a' : ℝ, |a' - a| ≤ δ → Looks δ wl (.linearSoa a) (.linearSoa a')) ∧
    ∀ (m n : ℕ) (re im re' im' : Matrix (Fin m) (Fin n) ℝ), (∀ i j, |re' i j - re i j| + |im' i j - im i j| ≤ δ) →
      Looks δ wl (.mmi m n re im) (.mmi m n re' im') := by
  refine ⟨?_, ?_, ?_, ?_, ?_⟩
  · intro length length' k k' loss loss' neff neff' wl0 wl0' ng ng' phase phase' hk hk' h1 h2 hs
    refine ⟨rfl, rfl, fun w i j hi hj hi' hj' => ?_⟩
    have e := congrFun (congrFun (longCoupler_shape length k loss phase) ⟨i, hi⟩) ⟨j, hj⟩
    have e' := congrFun (congrFun (longCoupler_shape length' k' loss' phase') ⟨i, hi'⟩) ⟨j, hj'⟩
    rw [exp_mod, Tol.smul_cross4] at e e'
    obtain ⟨l1, l3⟩ := Tol.damping_near h1 h2
    obtain ⟨-, l4⟩ := Tol.damping_near h2 h1
    obtain ⟨r1, r2, -, -⟩ := Tol.root_near hk hk'
    obtain ⟨-, -, r3, r4⟩ := Tol.root_near hk' hk
    have h5 := Tol.mul_near (a' := (lossFactor loss' length' : ℂ)) (b := Complex.exp ((phase : ℝ) * Complex.I)) l3 (Tol.turn_one phase')
    have h6 := Sens.turn_diff phase phase'
    have h7 : ‖(lossFactor loss length : ℂ) * Complex.exp ((phase : ℝ) * Complex.I)‖ ≤ 1 := by
      rw [norm_mul, Complex.norm_exp_ofReal_mul_I, mul_one]
      exact l3
    have ha : ‖(lossFactor loss' length' : ℂ) * Complex.exp ((phase' : ℝ) * Complex.I) * ⟨√(1 - k'), 0⟩ -
        (lossFactor loss length : ℂ) * Complex.exp ((phase : ℝ) * Complex.I) * ⟨√(1 - k), 0⟩‖ ≤ δ := by
      have := Tol.mul_near (a' := (lossFactor loss' length' : ℂ) * Complex.exp ((phase' : ℝ) * Complex.I)) (b := (⟨√(1 - k), 0⟩ : ℂ)) h7 r3
      linarith
    have hb : ‖(lossFactor loss' length' : ℂ) * Complex.exp ((phase' : ℝ) * Complex.I) * ⟨0, √k'⟩ -
        (lossFactor loss length : ℂ) * Complex.exp ((phase : ℝ) * Complex.I) * ⟨0, √k⟩‖ ≤ δ := by
      have := Tol.mul_near (a' := (lossFactor loss' length' : ℂ) * Complex.exp ((phase' : ℝ) * Complex.I)) (b := (⟨0, √k⟩ : ℂ)) h7 r4
      linarith
    exact le_of_eq_of_le (congrArg₂ (fun a b => ‖a - b‖) e' e) (Tol.cross4_near hδ ha hb hb ha _ _)
  · intro length length' k0 k0' n0 n0' d1k d1k' d1n d1n' d2k d2k' d2n d2n' wl0 wl0' hs
    refine ⟨rfl, rfl, fun w i j hi hj hi' hj' => ?_⟩
    have e := congrFun (congrFun (Tol.realistic_entry length k0 n0 d1k d1n d2k d2n wl0 (wl w)) ⟨i, hi⟩) ⟨j, hj⟩
    have e' := congrFun (congrFun (Tol.realistic_entry length' k0' n0' d1k' d1n' d2k' d2n' wl0' (wl w)) ⟨i, hi'⟩) ⟨j, hj'⟩
    have h := hs w
    revert e e' h
    generalize couplingAngle length k0 n0 d1k d1n d2k d2n wl0 (wl w) = x
    generalize couplingAngle length' k0' n0' d1k' d1n' d2k' d2n' wl0' (wl w) = y
    intro e e' h
    have ha := (Tol.cos_near x y).trans h
    have hb : ‖-((Real.sin y : ℝ) : ℂ) * Complex.I - -((Real.sin x : ℝ) : ℂ) * Complex.I‖ ≤ δ := by
      rw [← sub_mul, norm_mul, Complex.norm_I, mul_one, neg_sub_neg, norm_sub_rev]
      exact (Tol.sin_near x y).trans h
    exact le_of_eq_of_le (congrArg₂ (fun a b => ‖a - b‖) e' e) (Tol.cross4_near hδ ha hb hb ha _ _)
  · intro R R' Rin Rin' T T' bw wl0 hT hT' h1 h2 h3
    refine ⟨rfl, rfl, fun w i j hi hj hi' hj' => ?_⟩
    obtain ⟨t, ht, ht0, e⟩ := grating_shape R Rin T bw wl0 (wl w)
    obtain ⟨t', ht', ht0', e'⟩ := grating_shape R' Rin' T' bw wl0 (wl w)
    have e := congrFun (congrFun e ⟨i, hi⟩) ⟨j, hj⟩
    have e' := congrFun (congrFun e' ⟨i, hi'⟩) ⟨j, hj'⟩
    have him : ∀ a b : ℝ, ‖(⟨0, a⟩ : ℂ) - ⟨0, b⟩‖ = |a - b| := by
      intro a b
      have e : (⟨0, a⟩ : ℂ) - ⟨0, b⟩ = ((a - b : ℝ) : ℂ) * Complex.I := by apply Complex.ext <;> simp
      rw [e, norm_mul, Complex.norm_I, mul_one, Complex.norm_real, Real.norm_eq_abs]
    have hre : ∀ a b : ℝ, ‖(⟨a, 0⟩ : ℂ) - ⟨b, 0⟩‖ = |a - b| := by
      intro a b
      have e : (⟨a, 0⟩ : ℂ) - ⟨b, 0⟩ = ((a - b : ℝ) : ℂ) := by apply Complex.ext <;> simp
      rw [e, Complex.norm_real, Real.norm_eq_abs]
    have h4 : |t' - t| ≤ δ := by
      by_cases hb : bw = 0
      · rw [ht0 hb, ht0' hb, sub_self, abs_zero]
        exact hδ
      · rw [ht hb, ht' hb]
        have hx0 := Real.exp_pos (-((wl0 - wl w) ^ 2) / (2 * (1 / (2 * √(2 * Real.log 2)) * bw) ^ 2))
        have hx1 : Real.exp (-((wl0 - wl w) ^ 2) / (2 * (1 / (2 * √(2 * Real.log 2)) * bw) ^ 2)) ≤ 1 := by
          rw [Real.exp_le_one_iff]
          exact div_nonpos_of_nonpos_of_nonneg (neg_nonpos.2 (sq_nonneg _)) (by positivity)
        revert hx0 hx1
        generalize Real.exp (-((wl0 - wl w) ^ 2) / (2 * (1 / (2 * √(2 * Real.log 2)) * bw) ^ 2)) = x
        intro hx0 hx1
        refine (Tol.sqrt_near (by positivity) (by positivity)).trans (le_trans (Real.sqrt_le_sqrt ?_) h3)
        rw [← sub_mul, abs_mul, abs_of_pos hx0]
        exact mul_le_of_le_one_right (abs_nonneg _) hx1
    refine le_of_eq_of_le (congrArg₂ (fun a b => ‖a - b‖) e' e) (Tol.cross2_near ?_ ?_ ?_ _ _)
    · rw [him]; exact h2
    · rw [hre]; exact h4
    · rw [him]; exact h1
  · intro a a' h
    refine ⟨rfl, rfl, fun w i j hi hj hi' hj' => ?_⟩
    refine le_of_eq_of_le (congrArg₂ (fun a b => ‖a - b‖) (Tol.linearSoa_entry a' (wl w) ⟨i, hi'⟩ ⟨j, hj'⟩) (Tol.linearSoa_entry a (wl w) ⟨i, hi⟩ ⟨j, hj⟩)) ?_
    split_ifs
    · rw [← Complex.ofReal_sub, Complex.norm_real]
      exact h
    · rw [sub_self, norm_zero]
      exact hδ
  · intro m n re im re' im' h
    refine ⟨rfl, rfl, fun w i j hi hj hi' hj' => ?_⟩
    refine (Complex.norm_le_abs_re_add_abs_im _).trans ?_
    show |(mmiS re' im').re ⟨i, hi'⟩ ⟨j, hj'⟩ - (mmiS re im).re ⟨i, hi⟩ ⟨j, hj⟩| + |(mmiS re' im').im ⟨i, hi'⟩ ⟨j, hj'⟩ - (mmiS re im).im ⟨i, hi⟩ ⟨j, hj⟩| ≤ δ
    simp only [mmiS, Matrix.of_apply]
    split_ifs
    · simpa using hδ
    · exact h _ _
    · exact h _ _
    · simpa using hδ

/-- Not vacuous. -/
example : Looks (3 / 100) (fun _ : Unit => 1.55e-6) (.longCoupler 1e-5 0.5 0 2.86 1.55e-6 3 0) (.longCoupler 2e-5 0.5001 0 2.86 1.55e-6 3 0.01) ∧
    Looks (1 / 10) (fun _ : Unit => 1.55e-6) (.mmi 1 2 !![0.7, 0.7] 0) (.mmi 1 2 !![0.75, 0.72] !![0.01, 0]) := by
  constructor
  · refine (C156_others (fun _ : Unit => (1.55e-6 : ℝ)) (3 / 100) (by norm_num)).1 _ _ _ _ _ _ _ _ _ _ _ _ _ _ (by norm_num) (by norm_num)
      (by norm_num) (by norm_num) ?_
    have : √|(0.5001 : ℝ) - 0.5| ≤ 1 / 100 := by
      rw [Real.sqrt_le_left (by norm_num), abs_of_pos (by norm_num)]
      norm_num
    have h2 : |(0.01 : ℝ) - 0| ≤ 1 / 100 := by rw [abs_of_pos (by norm_num)]; norm_num
    have h3 : |(0 : ℝ) * 2e-5 - 0 * 1e-5| = 0 := by norm_num
    rw [h3, mul_zero]
    linarith
  · refine (C156_others (fun _ : Unit => (1.55e-6 : ℝ)) (1 / 10) (by norm_num)).2.2.2.2 1 2 _ _ _ _ fun i j => ?_
    fin_cases i
    fin_cases j <;> norm_num [abs_of_pos]

/-- C156. Circuits without feedback: lengths may change in the frequency domain, and in the time domain as long as delays in time steps do not. -/
theorem C156_feedforward (wl : W → ℝ) (δ : ℝ) (hδ : 0 ≤ δ) {R : Part → Part → Prop} (hR : ∀ p p', R p p' → Looks δ wl p p' ∧ p.n ≤ 4)
    (d d' : Dev) (hV : Varied R d d')
    (hM : MadeOf (fun p => ∀ wl, Contracts (scattering p wl)) d) (ht : d.comp.terminated = true)
    (front : ℕ → Bool) (rank : ℕ → ℕ) (hff : FeedForward d front rank) (D : ℕ) (hD : ∀ i < d.comp.n, rank i ≤ D) (v : ℝ)
    (hd : portsWith (d.plant v wl).det ≠ []) (dt : ℝ) (hdt : 0 < dt) (ε : ℝ) (hε : ε = 4 * δ) (hs : (D + 1) * ε < 1) :
    ResultsWithin ((D + 2) * ε / (1 - (D + 1) * ε)) (d.plant v wl) (d'.plant v wl) ∧
      ((∀ p p', R p p' → SameSteps dt (p.delay v) (p'.delay v)) →
        RunsWithin ((D + 2) * ε / (1 - (D + 1) * ε)) dt (d.plant v wl) (d'.plant v wl)) := by
  obtain ⟨S', del, e, h4, h5, h6, h7⟩ := hV.plant_looks hδ hR v
  rw [← e, hε]
  have key := C149_feedforward d hM ht front rank hff D hD v wl hd δ 4 hδ (by rw [hε] at hs; exact_mod_cast hs) S' h4 h6
  have key' := C150_feedforward d hM ht front rank hff D hD v wl hd dt hdt δ 4 hδ (by rw [hε] at hs; exact_mod_cast hs) S' h4 h5 h6
  exact ⟨results_delay (p' := withS (d.plant v wl) S') (by exact_mod_cast key) del, fun hst => runs_delay hdt (p' := withS (d.plant v wl) S')
    (by exact_mod_cast key') del (h7 (SameSteps dt) ⟨le_rfl, le_rfl, rfl⟩ hst)⟩

/-- C156. Resonant circuits. -/
theorem C156_resonant {parts : List (Str × Part)} (h : Closed parts cs) (hP : ∀ q ∈ parts, ∀ wl, Contracts (scattering q.2 wl))
    (hdet : ∃ q ∈ parts, isDetector q.2 = true) (name : Option Str) (d : Dev)
    (hd : mkDev name (parts.map fun q => (q.1, q.2.dev)) (cs.map Conn.text) = .ok d) (ρ : ℝ) (h0 : 0 ≤ ρ) (h1 : ρ < 1)
    (hb : BuffersBy ρ parts cs) (wl : W → ℝ) (δ : ℝ) (hδ : 0 ≤ δ) {R : Part → Part → Prop} (hR : ∀ p p', R p p' → Looks δ wl p p' ∧ p.n ≤ 4)
    (d' : Dev) (hV : Varied R d d') (v dt : ℝ) (hdt : 0 < dt) (ε : ℝ) (hε : ε = 4 * δ) (hs : 2 * ε < 1 - ρ) :
    ResultsWithin (4 * ε / ((1 - ρ) * (1 - ρ - 2 * ε))) (d.plant v wl) (d'.plant v wl) ∧
      ((∀ p p', R p p' → SameSteps dt (p.delay v) (p'.delay v)) →
        RunsWithin (4 * ε / ((1 - ρ) * (1 - ρ - 2 * ε))) dt (d.plant v wl) (d'.plant v wl)) := by
  obtain ⟨S', del, e', h4, h5, h6, h7⟩ := hV.plant_looks hδ hR v
  obtain ⟨l, hPl⟩ := placed_of h hd
  have hen := fun w => C153_enhancement h hP name d hd ρ h0 h1 hb v wl w
  have hdev : ∀ w, DeviatesBy ε (cx ((d.plant v wl).rS w) ((d.plant v wl).iS w)) (S' w) := by
    intro w
    have := Sens.deviates_of_entries (h6 w) hδ
    rw [hε]
    exact_mod_cast this
  have hd0 := det_exists hPl v wl hdet
  have h1' : 0 < 1 - ρ := by linarith
  have h2' : 0 < 1 - ρ - 2 * ε := by linarith
  have hε' : 0 ≤ ε := by rw [hε]; positivity
  have hk : 2 / (1 - ρ) * ε < 1 := by rw [div_mul_eq_mul_div, div_lt_one h1']; exact hs
  have e : (2 / (1 - ρ)) ^ 2 * ε / (1 - 2 / (1 - ρ) * ε) = 4 * ε / ((1 - ρ) * (1 - ρ - 2 * ε)) := by
    have : 1 - 2 / (1 - ρ) * ε = (1 - ρ - 2 * ε) / (1 - ρ) := by field_simp
    rw [this]
    field_simp
    ring
  have k1 := C149_near d hPl.made hPl.term v wl hd0 (2 / (1 - ρ)) ε (by positivity) hk (fun w => (hen w).1) S' h4 hdev
  have k2 := C150_near d hPl.made hPl.term v wl hd0 dt hdt (2 / (1 - ρ)) ε (by positivity) hε' hk (fun w => (hen w).2 dt) S' h4 h5 hdev
  rw [e] at k1 k2
  rw [← e']
  exact ⟨results_delay (p' := withS (d.plant v wl) S') k1 del, fun hst => runs_delay hdt (p' := withS (d.plant v wl) S') k2 del
    (h7 (SameSteps dt) ⟨le_rfl, le_rfl, rfl⟩ hst)⟩

/-- C156. Delays play no role in the frequency domain: circuits with components that differ in their delays only give the same results, and in the time
domain if their delays in time steps are the same. -/
theorem C156_steps (wl : W → ℝ) {R : Part → Part → Prop} (m : ℕ) (hR : ∀ p p', R p p' → Looks 0 wl p p' ∧ p.n ≤ m) (d d' : Dev) (hV : Varied R d d') (v : ℝ)
    (env : SimEnv) (henv : env.freqdomain = true ∨
      env.freqdomain = false ∧ ∃ dt, env.dt = some dt ∧ 0 < dt ∧ ∀ p p', R p p' → SameSteps dt (p.delay v) (p'.delay v))
    (r : Reduced W) (hr : initNet (d.plant v wl) env = .ok (some r)) :
    ∃ r', initNet (d'.plant v wl) env = .ok (some r') ∧
      ∀ (B : Type) (cs : List (Actor W B)) (src : ℕ → ℕ → W → B → ℝ × ℝ), forwardReduced r' env cs src = forwardReduced r env cs src := by
  obtain ⟨S', del, e, -, -, h6, h7⟩ := hV.plant_looks le_rfl hR v
  have hS : ∀ w i j, S' w i j = cx ((d.plant v wl).rS w) ((d.plant v wl).iS w) i j := fun w i j =>
    sub_eq_zero.1 (norm_le_zero_iff.1 ((h6 w).near i j))
  have e' : ({ d.plant v wl with delay := del } : Plant W) = d'.plant v wl := by
    have hS' : S' = fun w => cx ((d.plant v wl).rS w) ((d.plant v wl).iS w) := funext fun w => Matrix.ext (hS w)
    rw [hS'] at e
    exact e
  rw [← e']
  have hst : ∀ i, Plant.steps ({ d.plant v wl with delay := del } : Plant W) env i = (d.plant v wl).steps env i := by
    rcases henv with hf | ⟨hf, dt, hdt, h0, hsame⟩
    · exact steps_dark (d.plant v wl) del env hf
    · exact fun i => steps_time (d.plant v wl) del env hf dt h0 hdt i (h7 (SameSteps dt) ⟨le_rfl, le_rfl, rfl⟩ hsame i)
  have hdt : env.freqdomain = true ∨ ∃ dt, env.dt = some dt ∧ 0 < dt := by
    rcases henv with hf | ⟨-, dt, hdt, h0, -⟩
    · exact .inl hf
    · exact .inr ⟨dt, hdt, h0⟩
  obtain ⟨s, hs⟩ := init_steps (d.plant v wl) del env hst r hr
  exact ⟨_, hs, fun B cs src => forward_seconds r s env cs src (by rw [buffer_init hdt hs, buffer_init hdt hr])⟩

namespace Tol

theorem exLonger : SameSteps 1e-14 (3.4 * 1e-5 / 3e8) (3.4 * (1e-5 + 1e-11) / 3e8) := by
  have h : ∀ x : ℝ, 11 ≤ x → x < 11.5 → round x = 11 := by
    intro x h1 h2
    rw [round_eq, Int.floor_eq_iff]
    constructor <;> push_cast <;> linarith
  refine ⟨by norm_num, by norm_num, ?_⟩
  rw [h _ (by norm_num) (by norm_num), h _ (by norm_num) (by norm_num)]

/-- A waveguide of 10 micrometres that is 10 picometres too long. -/
theorem exLonger_looks (loss phase : ℝ) (h : 0 ≤ loss) (h' : loss ≤ 200000) :
    Looks (1 / 1000) (fun _ : Unit => 1.5e-6) (.waveguide 1e-5 loss 2.34 1.55e-6 3.4 phase) (.waveguide (1e-5 + 1e-11) loss 2.34 1.55e-6 3.4 phase) := by
  refine (C156_components (fun _ : Unit => (1.5e-6 : ℝ)) (1 / 1000)).1 1e-5 (1e-5 + 1e-11) loss loss 2.34 2.34 1.55e-6 1.55e-6 3.4 3.4 phase phase
    (by positivity) (by positivity) fun _ => ?_
  have hl : Real.log 10 ≤ 9 := (Real.log_le_sub_one_of_pos (by norm_num)).trans (by norm_num)
  have hl0 : 0 < Real.log 10 := Real.log_pos (by norm_num)
  have hpi := Real.pi_le_four
  have e1 : opticalLength (1e-5 + 1e-11) 2.34 1.55e-6 3.4 1.5e-6 - opticalLength 1e-5 2.34 1.55e-6 3.4 1.5e-6 = 1e-11 * (2.34 + 0.05 * 1.06 / 1.55) := by
    unfold opticalLength
    norm_num
  have e2 : loss * (1e-5 + 1e-11) - loss * 1e-5 = loss * 1e-11 := by ring
  rw [sub_self, abs_zero, zero_add, e1, e2, abs_of_pos (by norm_num), abs_of_pos (by norm_num), abs_of_nonneg (by positivity)]
  have h1 : 2 * Real.pi * (1e-11 * (2.34 + 0.05 * 1.06 / 1.55)) / 1.5e-6 ≤ 2 * 4 * (1e-11 * (2.34 + 0.05 * 1.06 / 1.55)) / 1.5e-6 := by gcongr
  have h2 : Real.log 10 / 20 * (loss * 1e-11) ≤ 9 / 20 * (200000 * 1e-11) := by gcongr
  refine (add_le_add h1 h2).trans ?_
  norm_num

/-- What may be put in place of what in the examples. -/
def exR (p p' : Part) : Prop := (Looks (1 / 1000) (fun _ : Unit => (1.5e-6 : ℝ)) p p' ∧ p.n ≤ 4) ∧ SameSteps 1e-14 (p.delay 3e8) (p'.delay 3e8)

theorem exR_same (p : Part) (h : p.n ≤ 4) (hd : 0 ≤ p.delay 3e8) : exR p p :=
  ⟨⟨⟨rfl, rfl, fun w i j hi hj hi' hj' => by rw [sub_self, norm_zero]; norm_num⟩, h⟩, hd, hd, rfl⟩

/-- The line of C66 with another length and group index of the waveguide. -/
theorem exLines_long {R : Part → Part → Prop} (l ng : ℝ) (h1 : R .source .source) (h2 : R .detector .detector)
    (h3 : R (.waveguide 1e-5 100 2.34 1.55e-6 3.4 1) (.waveguide l 100 2.34 1.55e-6 ng 1)) : ∃ d d', mkDev none (exLineWith 1) (exLineCs.map Conn.text) = .ok d ∧
    mkDev none [(['a'], Part.source.dev), (['w'], (Part.waveguide l 100 2.34 1.55e-6 ng 1).dev), (['b'], Part.detector.dev)]
      (exLineCs.map Conn.text) = .ok d' ∧ Varied R d d' ∧
    MadeOf (fun p => ∀ wl, Contracts (scattering p wl)) d ∧ d.comp.n = 4 ∧ d.comp.det = [false, false, false, true] ∧
    d.comp.terminated = true ∧ FeedForward d (fun i => i % 2 == 1) (fun i => (i + 1) / 2) := by
  obtain ⟨d, -, hd, -, -, hM, hn, hdet, ht, hff⟩ := exLines 1 1 (fun _ : Unit => (1.5e-6 : ℝ)) fun _ => by norm_num
  have hex : ∃ d', mkDev none [(['a'], Part.source.dev), (['w'], (Part.waveguide l 100 2.34 1.55e-6 ng 1).dev), (['b'], Part.detector.dev)]
      (exLineCs.map Conn.text) = .ok d' := by
    unfold mkDev at hd ⊢
    have e : ([(['a'], Part.source.dev), (['w'], (Part.waveguide l 100 2.34 1.55e-6 ng 1).dev), (['b'], Part.detector.dev)].map
        fun p => (p.1, p.2.comp)) = (exLineWith 1).map fun p => (p.1, p.2.comp) := rfl
    rw [e]
    cases hc : mkNet none ((exLineWith 1).map fun p => (p.1, p.2.comp)) (exLineCs.map Conn.text) with
    | error e => rw [hc] at hd; cases hd
    | ok c => exact ⟨_, rfl⟩
  obtain ⟨d', hd'⟩ := hex
  refine ⟨d, d', hd, hd', ?_, hM, hn, hdet, ht, hff⟩
  refine .net none [(['a'], Part.source.dev, Part.source.dev), (['w'], (Part.waveguide 1e-5 100 2.34 1.55e-6 3.4 1).dev,
    (Part.waveguide l 100 2.34 1.55e-6 ng 1).dev), (['b'], Part.detector.dev, Part.detector.dev)] exLineCs d d' ?_
    (goodConns_dec (by decide +kernel)) ⟨by decide, by decide⟩ ⟨by decide, by decide, by decide⟩ hd hd'
  intro q hq
  simp only [List.mem_cons, List.not_mem_nil, or_false] at hq
  rcases hq with rfl | rfl | rfl
  · exact .part _ _ h1 (by decide) (by decide)
  · exact .part _ _ h3 (by decide : 0 < 2) (by decide : 0 < 2)
  · exact .part _ _ h2 (by decide) (by decide)

/-- The cavity of C153 with a waveguide that is too long. -/
noncomputable def exLongPairs : List (Str × Part × Part) :=
  [("s".toList, .source, .source), ("m".toList, .mirror (1 / 3), .mirror (1 / 3)),
    ("w".toList, Sens.exLossy.part, .waveguide (1e-5 + 1e-11) 200000 2.34 1.55e-6 3.4 1),
    ("n".toList, .mirror (1 / 3), .mirror (1 / 3)), ("d".toList, .detector, .detector)]

theorem exLongPairs_near (q) (hq : q ∈ exLongPairs) : exR q.2.1 q.2.2 ∧ 0 < q.2.2.n := by
  simp only [exLongPairs, List.mem_cons, List.not_mem_nil, or_false] at hq
  rcases hq with rfl | rfl | rfl | rfl | rfl
  · exact ⟨exR_same .source (by decide) le_rfl, by decide⟩
  · exact ⟨exR_same (.mirror (1 / 3)) (by decide : 2 ≤ 4) le_rfl, (by decide : 0 < 2)⟩
  · exact ⟨⟨⟨exLonger_looks 200000 1 (by norm_num) le_rfl, (by decide : 2 ≤ 4)⟩, exLonger⟩, (by decide : 0 < 2)⟩
  · exact ⟨exR_same (.mirror (1 / 3)) (by decide : 2 ≤ 4) le_rfl, (by decide : 0 < 2)⟩
  · exact ⟨exR_same .detector (by decide) le_rfl, by decide⟩

end Tol

/-- Not vacuous: a line with a waveguide that is a millionth too long; results change by at most `1 / 60`. -/
example : ∃ d d', mkDev none (exLineWith 1) (exLineCs.map Conn.text) = .ok d ∧
    mkDev none [(['a'], Part.source.dev), (['w'], (Part.waveguide (1e-5 + 1e-11) 100 2.34 1.55e-6 3.4 1).dev), (['b'], Part.detector.dev)]
      (exLineCs.map Conn.text) = .ok d' ∧
    ∃ q, q ≤ (1 / 60 : ℝ) ∧ ResultsWithin q (d.plant 3e8 fun _ : Unit => 1.5e-6) (d'.plant 3e8 fun _ : Unit => 1.5e-6) ∧
      RunsWithin q 1e-14 (d.plant 3e8 fun _ : Unit => 1.5e-6) (d'.plant 3e8 fun _ : Unit => 1.5e-6) := by
  obtain ⟨d, d', hd, hd', hV, hM, hn, hdet, ht, hff⟩ := Tol.exLines_long (R := Tol.exR) (1e-5 + 1e-11) 3.4
    (Tol.exR_same .source (by decide) le_rfl) (Tol.exR_same .detector (by decide) le_rfl)
    ⟨⟨Tol.exLonger_looks 100 1 (by norm_num) (by norm_num), (by decide : 2 ≤ 4)⟩, Tol.exLonger⟩
  have hdl := exLine_det hn hdet 3e8 (fun _ : Unit => 1.5e-6)
  have h := C156_feedforward (fun _ : Unit => 1.5e-6) (1 / 1000) (by norm_num) (fun p p' h => h.1) d d' hV hM ht _ _ hff 2
    (fun i hi => by rw [hn] at hi; show (i + 1) / 2 ≤ 2; omega) 3e8 hdl 1e-14 (by norm_num) _ rfl (by norm_num)
  exact ⟨d, d', hd, hd', _, by norm_num, h.1, h.2 fun p p' h => h.2⟩

/-- Not vacuous: a cavity with a waveguide that is a millionth too long; results change by at most `1 / 2`. -/
example : ∃ d d', mkDev none (Tol.exLongPairs.map fun q => (q.1, q.2.1.dev)) (Sens.exCavityConns.map Conn.text) = .ok d ∧
    mkDev none (Tol.exLongPairs.map fun q => (q.1, q.2.2.dev)) (Sens.exCavityConns.map Conn.text) = .ok d' ∧
    ∃ q, q ≤ (1 / 2 : ℝ) ∧ ResultsWithin q (d.plant 3e8 fun _ : Unit => 1.5e-6) (d'.plant 3e8 fun _ : Unit => 1.5e-6) ∧
      RunsWithin q 1e-14 (d.plant 3e8 fun _ : Unit => 1.5e-6) (d'.plant 3e8 fun _ : Unit => 1.5e-6) := by
  have hcl := Sens.exCavity_closed
  obtain ⟨d, d', hd, hd', hV⟩ := C155_built (R := Tol.exR) (fun p p' h => h.1.1.comp) (pairs := Tol.exLongPairs)
    (show Closed Sens.exCavity Sens.exCavityConns from hcl) Tol.exLongPairs_near none
  have hc : ∀ q ∈ Sens.exCavity, ∀ wl, Contracts (scattering q.2 wl) := by
    intro q hq
    simp only [Sens.exCavity, List.mem_cons, List.not_mem_nil, or_false] at hq
    rcases hq with rfl | rfl | rfl | rfl | rfl
    · exact C65_contracts_partial .source trivial (by simp)
    · exact C65_contracts_partial (.mirror (1 / 3)) ⟨by norm_num, by norm_num⟩ (by simp)
    · exact C65_contracts_partial Sens.exLossy.part ⟨by norm_num [Sens.exLossy], by norm_num [Sens.exLossy]⟩ (by simp [Wg.part])
    · exact C65_contracts_partial (.mirror (1 / 3)) ⟨by norm_num, by norm_num⟩ (by simp)
    · exact C65_contracts_partial .detector trivial (by simp)
  have h := C156_resonant hcl hc ⟨("d".toList, .detector), by simp [Sens.exCavity], rfl⟩ none d hd (4 / 5) (by norm_num)
    (by norm_num) Sens.exCavity_buffers (fun _ : Unit => 1.5e-6) (1 / 1000) (by norm_num) (fun p p' h => h.1) d' hV 3e8 1e-14 (by norm_num) _ rfl
    (by norm_num)
  exact ⟨d, d', hd, hd', _, by norm_num, h.1, h.2 fun p p' h => h.2⟩

/-- Not vacuous: a waveguide with another group index, at its reference wavelength; the delay is 11 time steps before and after. -/
example : ∃ d d', mkDev none (exLineWith 1) (exLineCs.map Conn.text) = .ok d ∧
    mkDev none [(['a'], Part.source.dev), (['w'], (Part.waveguide 1e-5 100 2.34 1.55e-6 3.41 1).dev), (['b'], Part.detector.dev)]
      (exLineCs.map Conn.text) = .ok d' ∧
    ∀ ts, ∃ r r', initNet (d.plant 3e8 fun _ : Unit => 1.55e-6) ⟨some 1e-14, false, ts⟩ = .ok (some r) ∧
      initNet (d'.plant 3e8 fun _ : Unit => 1.55e-6) ⟨some 1e-14, false, ts⟩ = .ok (some r') ∧
      ∀ (cs : List (Actor Unit Unit)) src, forwardReduced r' ⟨some 1e-14, false, ts⟩ cs src = forwardReduced r ⟨some 1e-14, false, ts⟩ cs src := by
  have hself : ∀ p : Part, Looks 0 (fun _ : Unit => (1.55e-6 : ℝ)) p p := fun p =>
    ⟨rfl, rfl, fun w i j hi hj hi' hj' => by rw [sub_self, norm_zero]⟩
  have hst : SameSteps 1e-14 (3.4 * 1e-5 / 3e8) (3.41 * 1e-5 / 3e8) := by
    have h : ∀ x : ℝ, 11 ≤ x → x < 11.5 → round x = 11 := by
      intro x h1 h2
      rw [round_eq, Int.floor_eq_iff]
      constructor <;> push_cast <;> linarith
    refine ⟨by norm_num, by norm_num, ?_⟩
    rw [h _ (by norm_num) (by norm_num), h _ (by norm_num) (by norm_num)]
  obtain ⟨d, d', hd, hd', hV, hM, hn, hdet, ht, hff⟩ := Tol.exLines_long
    (R := fun p p' => (Looks 0 (fun _ : Unit => (1.55e-6 : ℝ)) p p' ∧ p.n ≤ 4) ∧ SameSteps 1e-14 (p.delay 3e8) (p'.delay 3e8)) 1e-5 3.41
    ⟨⟨hself .source, by decide⟩, le_rfl, le_rfl, rfl⟩ ⟨⟨hself .detector, by decide⟩, le_rfl, le_rfl, rfl⟩
    ⟨⟨(C156_components (fun _ : Unit => (1.55e-6 : ℝ)) 0).1 _ _ _ _ _ _ _ _ _ _ _ _ (by norm_num) (by norm_num) fun _ => by norm_num [opticalLength],
      (by decide : 2 ≤ 4)⟩, hst⟩
  have hdl := exLine_det hn hdet 3e8 (fun _ : Unit => 1.55e-6)
  refine ⟨d, d', hd, hd', fun ts => ?_⟩
  have hVd : Varied (fun p p' => Resembles 0 (fun _ : Unit => (1.55e-6 : ℝ)) p p' ∧ p.n ≤ 4) d d := by
    obtain ⟨e, e', he, he', hV, -⟩ := Tol.exLines 1 1 (fun _ : Unit => (1.55e-6 : ℝ)) fun _ => by norm_num
    rw [hd] at he he'
    cases he
    cases he'
    rw [sub_self, abs_zero] at hV
    exact hV
  have h0 := C155_feedforward (fun _ : Unit => (1.55e-6 : ℝ)) 0 le_rfl d d hVd hM ht _ _ hff 2
    (fun i hi => by rw [hn] at hi; show (i + 1) / 2 ≤ 2; omega) 3e8 hdl 1e-14 (by norm_num) _ rfl (by norm_num)
  obtain ⟨r, -, hr, -⟩ := h0.2 ⟨some 1e-14, false, ts⟩ rfl rfl
  obtain ⟨r', hr', h⟩ := C156_steps (fun _ : Unit => (1.55e-6 : ℝ)) 4 (fun p p' h => h.1) d d' hV 3e8 ⟨some 1e-14, false, ts⟩
    (.inr ⟨rfl, 1e-14, rfl, by norm_num, fun p p' h => h.2⟩) r hr
  exact ⟨r, r', hr, hr', fun cs src => h Unit cs src⟩

end PT
