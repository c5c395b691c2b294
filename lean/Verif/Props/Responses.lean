import Verif.Props.Parts
import Mathlib.Analysis.Calculus.Deriv.Pow
import Mathlib.Analysis.Calculus.Deriv.Mul
import Mathlib.Analysis.SpecialFunctions.Pow.Real
import Mathlib.Analysis.SpecialFunctions.Trigonometric.Basic

/-!
# The documented responses of the components (C91)
-/

namespace PT

open Spec

/-- A quadratic is determined by its value, slope and curvature at a point. -/
noncomputable def quadratic (a b c x₀ x : ℝ) : ℝ := a + b * (x - x₀) + c / 2 * (x - x₀) ^ 2

theorem quadratic_hasDerivAt (a b c x₀ x : ℝ) : HasDerivAt (quadratic a b c x₀) (b + c * (x - x₀)) x := by
  have h1 : HasDerivAt (fun y : ℝ => y - x₀) 1 x := (hasDerivAt_id x).sub_const x₀
  have h2 := (h1.const_mul b).const_add a
  have h3 := (h1.pow 2).const_mul (c / 2)
  have h4 := h2.add h3
  refine (h4.congr_deriv ?_).congr_of_eventuallyEq (Filter.Eventually.of_forall fun y => ?_)
  · simp; ring
  · simp [quadratic]

theorem quadratic_deriv (a b c x₀ : ℝ) : deriv (quadratic a b c x₀) = fun x => b + c * (x - x₀) :=
  funext fun x => (quadratic_hasDerivAt a b c x₀ x).deriv

theorem quadratic_deriv_deriv (a b c x₀ : ℝ) : deriv (deriv (quadratic a b c x₀)) x₀ = c := by
  rw [quadratic_deriv]
  have h1 : HasDerivAt (fun y : ℝ => y - x₀) 1 x₀ := (hasDerivAt_id x₀).sub_const x₀
  have := ((h1.const_mul c).const_add b).deriv
  simpa using this

theorem grating_entry (R Rin Tmax bw wl0 wl : ℝ) (hbw : bw ≠ 0) : scattering (.grating R Rin Tmax bw wl0) wl =
    cross2 ⟨0, Rin⟩ ⟨√(Tmax * Real.exp (-((wl0 - wl) ^ 2) / (2 * (1 / (2 * √(2 * Real.log 2)) * bw) ^ 2))), 0⟩ ⟨0, R⟩ := by
  obtain ⟨t, ht, -, h⟩ := grating_shape R Rin Tmax bw wl0 wl
  rw [← ht hbw]
  exact h

/-- **C91** (grating couplers): the power transmission between fiber and chip falls from `Tmax` at the center
wavelength as a gaussian that has halved (the 3 dB points) where the wavelength is half a bandwidth away, in both
directions the same. -/
theorem C91_grating (R Rin Tmax bw wl0 wl : ℝ) (hbw : 0 < bw) (hT : 0 ≤ Tmax) :
    ‖scattering (.grating R Rin Tmax bw wl0) wl (1 : Fin 2) (0 : Fin 2)‖ ^ 2 =
        Tmax * (1 / 2) ^ ((wl - wl0) / (bw / 2)) ^ 2 ∧
      ‖scattering (.grating R Rin Tmax bw wl0) wl (0 : Fin 2) (1 : Fin 2)‖ ^ 2 =
        Tmax * (1 / 2) ^ ((wl - wl0) / (bw / 2)) ^ 2 ∧
      scattering (.grating R Rin Tmax bw wl0) wl (0 : Fin 2) (0 : Fin 2) = Rin * Complex.I ∧
      scattering (.grating R Rin Tmax bw wl0) wl (1 : Fin 2) (1 : Fin 2) = R * Complex.I := by
  have hl : 0 < Real.log 2 := Real.log_pos (by norm_num)
  have key : ‖(⟨√(Tmax * Real.exp (-((wl0 - wl) ^ 2) / (2 * (1 / (2 * √(2 * Real.log 2)) * bw) ^ 2))), 0⟩ : ℂ)‖ ^ 2 =
      Tmax * (1 / 2) ^ ((wl - wl0) / (bw / 2)) ^ 2 := by
    rw [← Complex.normSq_eq_norm_sq, Complex.normSq_mk, mul_zero, add_zero, Real.mul_self_sqrt (by positivity)]
    congr 1
    rw [Real.rpow_def_of_pos (by norm_num)]
    congr 1
    rw [one_div (2 : ℝ), Real.log_inv, mul_pow, div_pow 1, one_pow, mul_pow, Real.sq_sqrt (by positivity)]
    field_simp
    ring
  rw [grating_entry _ _ _ _ _ _ hbw.ne']
  refine ⟨by simpa [cross2] using key, by simpa [cross2] using key, ?_, ?_⟩ <;>
    apply Complex.ext <;> simp [cross2]

/-- A bandwidth away from the center, a sixteenth is left. -/
example : ‖scattering (.grating 0.1 0.2 0.8 0.06e-6 1.55e-6) 1.61e-6 (0 : Fin 2) (1 : Fin 2)‖ ^ 2 = 0.05 := by
  rw [(C91_grating 0.1 0.2 0.8 0.06e-6 1.55e-6 1.61e-6 (by norm_num) (by norm_num)).2.1]
  have : ((1.61e-6 - 1.55e-6 : ℝ) / (0.06e-6 / 2)) ^ 2 = ((4 : ℕ) : ℝ) := by norm_num
  rw [this, Real.rpow_natCast]
  norm_num

/-- **C91** (bandwidth): more than half of the maximal transmission is obtained exactly within the bandwidth. -/
theorem C91_bandwidth (R Rin Tmax bw wl0 wl : ℝ) (hbw : 0 < bw) (hT : 0 < Tmax) :
    (Tmax / 2 < ‖scattering (.grating R Rin Tmax bw wl0) wl (1 : Fin 2) (0 : Fin 2)‖ ^ 2 ↔ |wl - wl0| < bw / 2) ∧
      (‖scattering (.grating R Rin Tmax bw wl0) wl (1 : Fin 2) (0 : Fin 2)‖ ^ 2 = Tmax / 2 ↔ |wl - wl0| = bw / 2) ∧
      (‖scattering (.grating R Rin Tmax bw wl0) wl (1 : Fin 2) (0 : Fin 2)‖ ^ 2 = Tmax ↔ wl = wl0) ∧
      ‖scattering (.grating R Rin Tmax bw wl0) wl (1 : Fin 2) (0 : Fin 2)‖ ^ 2 ≤ Tmax := by
  rw [(C91_grating R Rin Tmax bw wl0 wl hbw hT.le).1]
  have hb : 0 < bw / 2 := by positivity
  have e1 : ∀ x y : ℝ, (1 / 2 : ℝ) ^ x < (1 / 2 : ℝ) ^ y ↔ y < x := fun x y =>
    Real.rpow_lt_rpow_left_iff_of_base_lt_one (by norm_num) (by norm_num)
  have e2 : ∀ x y : ℝ, (1 / 2 : ℝ) ^ x = (1 / 2 : ℝ) ^ y ↔ x = y := fun x y => by
    refine ⟨fun h => ?_, fun h => h ▸ rfl⟩
    rcases lt_trichotomy x y with h' | h' | h'
    · exact absurd h ((e1 _ _).2 h').ne'
    · exact h'
    · exact absurd h ((e1 _ _).2 h').ne
  have e3 : Tmax / 2 = Tmax * (1 / 2) ^ (1 : ℝ) := by rw [Real.rpow_one]; ring
  have e4 : ((wl - wl0) / (bw / 2)) ^ 2 = (|wl - wl0| / (bw / 2)) ^ 2 := by
    rw [div_pow _ (bw / 2), div_pow _ (bw / 2), sq_abs]
  have h0 : 0 ≤ |wl - wl0| / (bw / 2) := by positivity
  refine ⟨?_, ?_, ?_, ?_⟩
  · rw [e3, mul_lt_mul_iff_right₀ hT, e1, e4, sq_lt_one_iff₀ h0, div_lt_one hb]
  · rw [e3, mul_right_inj' hT.ne', e2, e4, pow_eq_one_iff_of_nonneg h0 two_ne_zero, div_eq_one_iff_eq hb.ne']
  · have : Tmax * (1 / 2 : ℝ) ^ ((wl - wl0) / (bw / 2)) ^ 2 = Tmax ↔
        Tmax * (1 / 2 : ℝ) ^ ((wl - wl0) / (bw / 2)) ^ 2 = Tmax * (1 / 2) ^ (0 : ℝ) := by rw [Real.rpow_zero, mul_one]
    rw [this, mul_right_inj' hT.ne', e2]
    simp [hb.ne', sub_eq_zero, hbw.ne']
  · refine mul_le_of_le_one_right hT.le (Real.rpow_le_one (by norm_num) (by norm_num) (sq_nonneg _))

example : ‖scattering (.grating 0 0 1 0.06e-6 1.55e-6) 1.58e-6 (1 : Fin 2) (0 : Fin 2)‖ ^ 2 = 1 / 2 :=
  (C91_bandwidth 0 0 1 0.06e-6 1.55e-6 1.58e-6 (by norm_num) one_pos).2.1.2
    (by rw [abs_of_nonneg (by norm_num)]; norm_num)

theorem realisticCoupler_entry (length k0 n0 d1k d1n d2k d2n wl0 wl : ℝ) :
    scattering (.realisticCoupler length k0 n0 d1k d1n d2k d2n wl0) wl =
      cross4 ⟨Real.cos (quadratic k0 d1k d2k wl0 wl + Real.pi * quadratic n0 d1n d2n wl0 wl * length / wl), 0⟩
        ⟨0, -Real.sin (quadratic k0 d1k d2k wl0 wl + Real.pi * quadratic n0 d1n d2n wl0 wl * length / wl)⟩
        ⟨0, -Real.sin (quadratic k0 d1k d2k wl0 wl + Real.pi * quadratic n0 d1n d2n wl0 wl * length / wl)⟩
        ⟨Real.cos (quadratic k0 d1k d2k wl0 wl + Real.pi * quadratic n0 d1n d2n wl0 wl * length / wl), 0⟩ := by
  have e : quadratic k0 d1k d2k wl0 wl + Real.pi * quadratic n0 d1n d2n wl0 wl * length / wl =
      k0 + d1k * (wl - wl0) + 0.5 * d2k * (wl - wl0) ^ 2 +
        Real.pi * (n0 + d1n * (wl - wl0) + 0.5 * d2n * (wl - wl0) ^ 2) / wl * length := by
    unfold quadratic; ring
  rw [e]
  show cx (realisticCouplerS length k0 n0 d1k d1n d2k d2n wl0 wl).re
    (realisticCouplerS length k0 n0 d1k d1n d2k d2n wl0 wl).im = _
  ext i j
  fin_cases i <;> fin_cases j <;> apply Complex.ext <;>
    simp [cx, realisticCouplerS, SMat.setRe2, SMat.setIm2, SMat.setRe, SMat.setIm, SMat.zero, cross4]

/-- **C91** (couplers with dispersion): there are a bend coupling `κ` and an index difference `Δn` of the even and odd
modes, both with the given value, first and second derivative at the center wavelength and the same for all lengths,
so that the modes leave with a phase difference of `2 κ + 2 π Δn length / wl`: the amplitude that is transmitted is
the mean of what the even and odd mode carry, the amplitude that couples half of their difference. -/
theorem C91_realistic (k0 n0 d1k d1n d2k d2n wl0 : ℝ) : ∃ κ Δn : ℝ → ℝ,
    (κ wl0 = k0 ∧ deriv κ wl0 = d1k ∧ deriv (deriv κ) wl0 = d2k) ∧
    (Δn wl0 = n0 ∧ deriv Δn wl0 = d1n ∧ deriv (deriv Δn) wl0 = d2n) ∧
    (∀ x, deriv (deriv κ) x = d2k) ∧ (∀ x, deriv (deriv Δn) x = d2n) ∧
    ∀ (length wl : ℝ) (a : Fin 4 → ℂ), ∀ even odd : ℂ,
      even = Complex.exp (-((κ wl + Real.pi * Δn wl * length / wl : ℝ) : ℂ) * Complex.I) →
      odd = Complex.exp (((κ wl + Real.pi * Δn wl * length / wl : ℝ) : ℂ) * Complex.I) →
      (scattering (.realisticCoupler length k0 n0 d1k d1n d2k d2n wl0) wl).mulVec a =
        ![(even + odd) / 2 * a 1 + (even - odd) / 2 * a 2, (even + odd) / 2 * a 0 + (even - odd) / 2 * a 3,
          (even + odd) / 2 * a 3 + (even - odd) / 2 * a 0, (even + odd) / 2 * a 2 + (even - odd) / 2 * a 1] := by
  have dd : ∀ a b c x₀ x : ℝ, deriv (deriv (quadratic a b c x₀)) x = c := fun a b c x₀ x => by
    rw [quadratic_deriv]
    have h1 : HasDerivAt (fun y : ℝ => y - x₀) 1 x := (hasDerivAt_id x).sub_const x₀
    have := ((h1.const_mul c).const_add b).deriv
    simpa using this
  refine ⟨quadratic k0 d1k d2k wl0, quadratic n0 d1n d2n wl0, ⟨by simp [quadratic], ?_, dd _ _ _ _ _⟩,
    ⟨by simp [quadratic], ?_, dd _ _ _ _ _⟩, dd _ _ _ _, dd _ _ _ _, fun length wl a even odd he ho => ?_⟩
  · rw [quadratic_deriv]; simp
  · rw [quadratic_deriv]; simp
  rw [realisticCoupler_entry]
  set x := quadratic k0 d1k d2k wl0 wl + Real.pi * quadratic n0 d1n d2n wl0 wl * length / wl
  have hc : (even + odd) / 2 = ⟨Real.cos x, 0⟩ := by
    rw [he, ho]
    apply Complex.ext <;> simp [Complex.exp_re, Complex.exp_im]
  have hs : (even - odd) / 2 = ⟨0, -Real.sin x⟩ := by
    rw [he, ho]
    apply Complex.ext <;> simp [Complex.exp_re, Complex.exp_im] <;> ring
  rw [hc, hs]
  funext i
  fin_cases i <;> simp [cross4, Matrix.mulVec, dotProduct, Fin.sum_univ_four] <;> ring

/-- A coupler in which the modes get a quarter period out of phase crosses everything. -/
example (a : Fin 4 → ℂ) : (scattering (.realisticCoupler 1 (Real.pi / 4) (1 / 4) 0 0 0 0 1) 1).mulVec a =
    ![-Complex.I * a 2, -Complex.I * a 3, -Complex.I * a 0, -Complex.I * a 1] := by
  have := realisticCoupler_entry 1 (Real.pi / 4) (1 / 4) 0 0 0 0 1 1
  have e : quadratic (Real.pi / 4) 0 0 1 1 + Real.pi * quadratic (1 / 4) 0 0 1 1 * 1 / 1 = Real.pi / 2 := by
    simp [quadratic]; ring
  rw [this, e, Real.cos_pi_div_two, Real.sin_pi_div_two]
  have h0 : (⟨0, 0⟩ : ℂ) = 0 := rfl
  have h1 : (⟨0, -1⟩ : ℂ) = -Complex.I := by apply Complex.ext <;> simp
  rw [h0, h1]
  funext i
  fin_cases i <;> simp [cross4, Matrix.mulVec, dotProduct, Fin.sum_univ_four]

/-- **C91** (couplers in series): two couplers without bend coupling, one after the other, are one coupler as long as
both together. -/
theorem C91_series (l₁ l₂ n0 d1n d2n wl0 wl : ℝ) (a₁ b₁ a₂ b₂ : Fin 4 → ℂ)
    (h₁ : b₁ = (scattering (.realisticCoupler l₁ 0 n0 0 d1n 0 d2n wl0) wl).mulVec a₁)
    (h₂ : b₂ = (scattering (.realisticCoupler l₂ 0 n0 0 d1n 0 d2n wl0) wl).mulVec a₂)
    (c₁ : a₂ 0 = b₁ 1) (c₂ : a₂ 3 = b₁ 2) (c₃ : a₁ 1 = b₂ 0) (c₄ : a₁ 2 = b₂ 3) :
    ![b₁ 0, b₂ 1, b₂ 2, b₁ 3] =
      (scattering (.realisticCoupler (l₁ + l₂) 0 n0 0 d1n 0 d2n wl0) wl).mulVec ![a₁ 0, a₂ 1, a₂ 2, a₁ 3] := by
  rw [realisticCoupler_entry] at h₁ h₂ ⊢
  have hq : quadratic 0 0 0 wl0 wl = 0 := by simp [quadratic]
  rw [hq, zero_add] at h₁ h₂ ⊢
  set x := Real.pi * quadratic n0 d1n d2n wl0 wl * l₁ / wl with hx
  set y := Real.pi * quadratic n0 d1n d2n wl0 wl * l₂ / wl with hy
  have hxy : Real.pi * quadratic n0 d1n d2n wl0 wl * (l₁ + l₂) / wl = x + y := by rw [hx, hy]; ring
  rw [hxy]
  have ec : (⟨Real.cos (x + y), 0⟩ : ℂ) = ⟨Real.cos x, 0⟩ * ⟨Real.cos y, 0⟩ + ⟨0, -Real.sin x⟩ * ⟨0, -Real.sin y⟩ := by
    apply Complex.ext <;> simp [Real.cos_add, sub_eq_add_neg]
  have es : (⟨0, -Real.sin (x + y)⟩ : ℂ) = ⟨Real.cos x, 0⟩ * ⟨0, -Real.sin y⟩ + ⟨0, -Real.sin x⟩ * ⟨Real.cos y, 0⟩ := by
    apply Complex.ext <;> simp [Real.sin_add]
  rw [ec, es]
  have g := fun i => congrFun h₁ i
  have k := fun i => congrFun h₂ i
  have g0 := g 0
  have g1 := g 1
  have g2 := g 2
  have g3 := g 3
  have k0 := k 0
  have k1 := k 1
  have k2 := k 2
  have k3 := k 3
  generalize (⟨Real.cos x, 0⟩ : ℂ) = p at *
  generalize (⟨0, -Real.sin x⟩ : ℂ) = q at *
  generalize (⟨Real.cos y, 0⟩ : ℂ) = r at *
  generalize (⟨0, -Real.sin y⟩ : ℂ) = s at *
  simp [cross4, Matrix.mulVec, dotProduct, Fin.sum_univ_four] at g0 g1 g2 g3 k0 k1 k2 k3
  funext i
  fin_cases i <;> simp [cross4, Matrix.mulVec, dotProduct, Fin.sum_univ_four]
  · rw [g0, c₃, c₄, k0, k3]; ring
  · rw [k1, c₁, c₂, g1, g2]; ring
  · rw [k2, c₁, c₂, g1, g2]; ring
  · rw [g3, c₃, c₄, k0, k3]; ring

/-- The coupler of the docstring without bend coupling (wavelengths in µm), cut in two. -/
example (a₁ b₁ a₂ b₂ : Fin 4 → ℂ)
    (h₁ : b₁ = (scattering (.realisticCoupler 10 0 0.0208 0 0.1169 0 0.4821 1.55) 1.5).mulVec a₁)
    (h₂ : b₂ = (scattering (.realisticCoupler 2.8 0 0.0208 0 0.1169 0 0.4821 1.55) 1.5).mulVec a₂)
    (c₁ : a₂ 0 = b₁ 1) (c₂ : a₂ 3 = b₁ 2) (c₃ : a₁ 1 = b₂ 0) (c₄ : a₁ 2 = b₂ 3) :
    ![b₁ 0, b₂ 1, b₂ 2, b₁ 3] =
      (scattering (.realisticCoupler 12.8 0 0.0208 0 0.1169 0 0.4821 1.55) 1.5).mulVec ![a₁ 0, a₂ 1, a₂ 2, a₁ 3] := by
  have h : (12.8 : ℝ) = 10 + 2.8 := by norm_num
  rw [h]
  exact C91_series 10 2.8 0.0208 0.1169 0.4821 1.55 1.5 a₁ b₁ a₂ b₂ h₁ h₂ c₁ c₂ c₃ c₄

/-- **C91** (power ratios): `coupling` is the fraction of the power that crosses a directional coupler, `R` the
fraction a mirror reflects; the rest is transmitted, and nothing leaves anywhere else. -/
theorem C91_ratios (x wl : ℝ) (h0 : 0 ≤ x) (h1 : x ≤ 1) :
    (∀ i j : Fin 4, ‖scattering (.coupler x) wl i j‖ ^ 2 =
      if (i.1, j.1) ∈ [(0, 1), (1, 0), (2, 3), (3, 2)] then 1 - x
      else if (i.1, j.1) ∈ [(0, 2), (2, 0), (1, 3), (3, 1)] then x else 0) ∧
    (∀ i j : Fin 2, ‖scattering (.mirror x) wl i j‖ ^ 2 = if i = j then x else 1 - x) := by
  have s0 : √x ^ 2 = x := Real.sq_sqrt h0
  have s1 : √(1 - x) ^ 2 = 1 - x := Real.sq_sqrt (by linarith)
  have e1 : scattering (.coupler x) wl = cross4 ⟨√(1 - x), 0⟩ ⟨0, √x⟩ ⟨0, √x⟩ ⟨√(1 - x), 0⟩ := coupler_shape x
  have e2 : scattering (.mirror x) wl = cross2 ⟨√x, 0⟩ ⟨0, √(1 - x)⟩ ⟨√x, 0⟩ := mirror_shape x
  rw [e1, e2]
  constructor
  · intro i j
    rw [← Complex.normSq_eq_norm_sq]
    fin_cases i <;> fin_cases j <;> simp [cross4, Complex.normSq_apply, ← sq, s0, s1]
  · intro i j
    rw [← Complex.normSq_eq_norm_sq]
    fin_cases i <;> fin_cases j <;> simp [cross2, Complex.normSq_apply, ← sq, s0, s1]

example : ‖scattering (.coupler 0.3) 1.55e-6 (2 : Fin 4) (0 : Fin 4)‖ ^ 2 = 0.3 := by
  rw [(C91_ratios 0.3 1.55e-6 (by norm_num) (by norm_num)).1]; simp

/-- **C91** (delays): the delay of every component is the time that light with the group index needs for its length;
components without a length have none. -/
theorem C91_delays (c : ℝ) (hc : c ≠ 0) :
    (∀ l loss neff wl0 ng φ, c * (Part.waveguide l loss neff wl0 ng φ).delay c = ng * l) ∧
    (∀ l k loss neff wl0 ng φ, c * (Part.longCoupler l k loss neff wl0 ng φ).delay c = ng * l) ∧
    (∀ phi theta neff ng wl0 l loss, c * (Part.mzi phi theta neff ng wl0 l loss).delay c = ng * l) ∧
    (∀ p : Part, (∀ l loss neff wl0 ng φ, p ≠ .waveguide l loss neff wl0 ng φ) →
      (∀ l k loss neff wl0 ng φ, p ≠ .longCoupler l k loss neff wl0 ng φ) →
      (∀ phi theta neff ng wl0 l loss, p ≠ .mzi phi theta neff ng wl0 l loss) → p.delay c = 0) := by
  have key : ∀ ng l : ℝ, c * lengthDelay ng l c = ng * l := fun ng l => by
    unfold lengthDelay; field_simp
  refine ⟨fun _ _ _ _ _ _ => key _ _, fun _ _ _ _ _ _ _ => key _ _, fun _ _ _ _ _ _ _ => key _ _,
    fun p h1 h2 h3 => ?_⟩
  cases p <;> first | rfl | (exact absurd rfl (h1 _ _ _ _ _ _)) | (exact absurd rfl (h2 _ _ _ _ _ _ _)) |
    (exact absurd rfl (h3 _ _ _ _ _ _ _))

/-- A waveguide of 1 mm with group index 3.4 delays by 3.4e-3 m / c. -/
example : 299792458 * (Part.waveguide 1e-3 0 2.34 1.55e-6 3.4 0).delay 299792458 = 3.4e-3 := by
  rw [(C91_delays 299792458 (by norm_num)).1]; norm_num

end PT
