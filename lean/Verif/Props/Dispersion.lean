import Verif.Props.Parts

/-!
# C81: dispersion
-/

namespace PT
open Spec Matrix

namespace Spec

/-- Light of another wavelength acquires the phase that belongs to the delay of the component: its scattering matrices at two
wavelengths differ by `exp(2πi (f₁ - f₂) τ)`, where `f = c / wl` are the optical frequencies and `τ` is the delay. -/
def Dispersive (p : Part) : Prop := ∀ c wl₁ wl₂ : ℝ, c ≠ 0 → wl₁ ≠ 0 → wl₂ ≠ 0 →
  scattering p wl₁ = Complex.exp ((2 * Real.pi * (c / wl₁ - c / wl₂) * p.delay c : ℝ) * Complex.I) • scattering p wl₂

/-- The components that have a length, an effective and a group index and a reference wavelength. -/
def HasIndex : Part → Prop
  | .waveguide _ _ _ wl0 _ _ => wl0 ≠ 0
  | .longCoupler _ _ _ _ wl0 _ _ => wl0 ≠ 0
  | .mzi _ _ _ _ wl0 _ _ => wl0 ≠ 0
  | _ => False

end Spec

/-- The statement of C81. -/
def C81 : Prop := ∀ p, HasIndex p → Dispersive p

theorem propagation_shift (l neff wl0 ng c wl₁ wl₂ : ℝ) (h0 : wl0 ≠ 0) (hc : c ≠ 0) (h1 : wl₁ ≠ 0) (h2 : wl₂ ≠ 0) :
    2 * Real.pi * neffAt neff wl0 ng wl₁ * l / wl₁ =
      2 * Real.pi * (c / wl₁ - c / wl₂) * lengthDelay ng l c + 2 * Real.pi * neffAt neff wl0 ng wl₂ * l / wl₂ := by
  unfold neffAt lengthDelay
  field_simp
  ring

/-- C81 for waveguides and Mzis. Missing: `DirectionalCouplerWithLength`, for which C81 is false. -/
theorem C81_waveguide_partial (l loss neff wl0 ng φ : ℝ) (h0 : wl0 ≠ 0) : Dispersive (.waveguide l loss neff wl0 ng φ) := by
  intro c wl₁ wl₂ hc h1 h2
  rw [waveguide_entry, waveguide_entry, propagation_shift l neff wl0 ng c wl₁ wl₂ h0 hc h1 h2]
  have : (Part.waveguide l loss neff wl0 ng φ).delay c = lengthDelay ng l c := rfl
  rw [this]
  ext i j
  fin_cases i <;> fin_cases j <;> simp [cross2, add_assoc, add_mul, Complex.exp_add, mul_left_comm]

theorem mzi_entry (phi theta l neff wl0 ng loss wl : ℝ) : scattering (.mzi phi theta neff ng wl0 l loss) wl =
    Complex.exp ((2 * Real.pi * neffAt neff wl0 ng wl * l / wl : ℝ) * Complex.I) •
      (cross4 (Complex.exp (phi * Complex.I) * Real.cos theta) (Complex.exp (phi * Complex.I) * Real.sin theta)
        (-(Real.sin theta : ℂ)) (Real.cos theta) : Matrix (Fin 4) (Fin 4) ℂ) := by
  obtain ⟨x, hx, h⟩ := mzi_shape phi theta l neff wl0 ng wl
  refine h.trans ?_
  rw [Complex.ofReal_add, add_mul, Complex.exp_add, hx, propagation, exp_mod]
  ext i j
  fin_cases i <;> fin_cases j <;> simp [cross4, mul_assoc]

/-- C81 for Mzis. -/
theorem C81_mzi_partial (phi theta neff ng wl0 l loss : ℝ) (h0 : wl0 ≠ 0) : Dispersive (.mzi phi theta neff ng wl0 l loss) := by
  intro c wl₁ wl₂ hc h1 h2
  rw [mzi_entry, mzi_entry, propagation_shift l neff wl0 ng c wl₁ wl₂ h0 hc h1 h2, smul_smul, ← Complex.exp_add, ← add_mul,
    ← Complex.ofReal_add]
  rfl

/-- C81: at the reference wavelength the phase is that of the effective index. -/
theorem C81_reference (l loss neff wl0 ng φ : ℝ) (h0 : wl0 ≠ 0) :
    scattering (.waveguide l loss neff wl0 ng φ) wl0 1 0 = ((10 : ℝ) ^ (-loss * l / 20) : ℝ) *
      Complex.exp ((2 * Real.pi * neff * l / wl0 + φ : ℝ) * Complex.I) := by
  rw [waveguide_entry]
  have : neffAt neff wl0 ng wl0 = neff := by unfold neffAt; ring
  rw [this]
  rfl

/-- C81: the transmission is the same at wavelengths whose distance in frequency is a multiple of the free spectral range. -/
theorem C81_period (p : Part) (hp : Dispersive p) (c wl₁ wl₂ : ℝ) (hc : c ≠ 0) (h1 : wl₁ ≠ 0) (h2 : wl₂ ≠ 0) (k : ℤ)
    (hk : (c / wl₁ - c / wl₂) * p.delay c = k) : scattering p wl₁ = scattering p wl₂ := by
  rw [hp c wl₁ wl₂ hc h1 h2, mul_assoc, hk]
  have : ((2 * Real.pi * (k : ℝ) : ℝ) : ℂ) * Complex.I = (k : ℂ) * (2 * Real.pi * Complex.I) := by push_cast; ring
  rw [this, Complex.exp_int_mul_two_pi_mul_I, one_smul]

/-- C81 is false: a `DirectionalCouplerWithLength` scatters all wavelengths alike, though it has a delay. -/
theorem C81_violation : ¬C81 ∧ ∀ l k loss neff wl0 ng φ wl₁ wl₂ : ℝ,
    scattering (.longCoupler l k loss neff wl0 ng φ) wl₁ = scattering (.longCoupler l k loss neff wl0 ng φ) wl₂ := by
  have key : ∀ l k loss neff wl0 ng φ wl₁ wl₂ : ℝ,
    scattering (.longCoupler l k loss neff wl0 ng φ) wl₁ = scattering (.longCoupler l k loss neff wl0 ng φ) wl₂ := fun _ _ _ _ _ _ _ _ _ => rfl
  refine ⟨fun h => ?_, key⟩
  have h1 := h (.longCoupler 1 0 0 1 1 1 0) (by simp [HasIndex]) 1 1 2 (by norm_num) (by norm_num) (by norm_num)
  rw [key 1 0 0 1 1 1 0 1 2] at h1
  have e : ((2 * Real.pi * (1 / 1 - 1 / 2) * (Part.longCoupler 1 0 0 1 1 1 0).delay 1 : ℝ) : ℂ) * Complex.I = Real.pi * Complex.I := by
    have : (Part.longCoupler 1 0 0 1 1 1 0).delay 1 = 1 := by simp [Part.delay, lengthDelay]
    rw [this]
    push_cast
    ring
  rw [e, Complex.exp_pi_mul_I] at h1
  have h2 := congrFun (congrFun h1 (0 : Fin 4)) (1 : Fin 4)
  have h3 : scattering (.longCoupler 1 0 0 1 1 1 0) 2 (0 : Fin 4) (1 : Fin 4) = 1 := by
    apply Complex.ext <;> simp [scattering, cx, Part.S, longCouplerS, SMat.setRe2, SMat.setIm2, SMat.setRe, SMat.setIm, SMat.zero, lossFactor,
      modTwoPi]
  rw [Matrix.smul_apply, h3] at h2
  norm_num at h2

/-- A ring of length 100 µm with group index 3: its free spectral range is 1 THz (for a speed of light of 3e8 m/s). -/
example : scattering (.waveguide 1e-4 0 2.34 1.55e-6 3 0) (3e8 / 193e12) = scattering (.waveguide 1e-4 0 2.34 1.55e-6 3 0) (3e8 / 194e12) :=
  C81_period _ (C81_waveguide_partial _ _ _ _ _ _ (by norm_num)) 3e8 _ _ (by norm_num) (by norm_num) (by norm_num) (-1)
    (by simp only [Part.delay, lengthDelay]; norm_num)

example : Dispersive (.mzi 0.3 0.5 2.34 3.4 1.55e-6 1e-5 0) := C81_mzi_partial _ _ _ _ _ _ _ (by norm_num)

end PT
