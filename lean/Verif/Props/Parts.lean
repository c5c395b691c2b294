import Verif.Props.Components

/-!
# C43, C44, C45, C48, C64, C65: reciprocity, loss, composition and passivity of the components
-/

namespace PT
open Spec Matrix

/-! ## C43 -/

theorem cross2_symm (p t q : ℂ) (i j : Fin 2) : cross2 p t q i j = cross2 p t q j i := by
  fin_cases i <;> fin_cases j <;> rfl

theorem cross4_symm (a b c d : ℂ) (i j : Fin 4) : cross4 a b c d i j = cross4 a b c d j i := by
  fin_cases i <;> fin_cases j <;> rfl

/-- C43 (what holds): all components other than `LinearSoa` are reciprocal. -/
theorem C43_reciprocal_partial (p : Part) (hp : ∀ a, p ≠ .linearSoa a) (wl : ℝ) : SymmetricS (scattering p wl) := by
  cases p with
  | term => intro i j; rfl
  | source => intro i j; rfl
  | detector => intro i j; rfl
  | connection =>
    intro i j
    exact (congrFun₂ connection_shape i j).trans ((cross2_symm _ _ _ i j).trans (congrFun₂ connection_shape j i).symm)
  | mirror R =>
    intro i j
    exact (congrFun₂ (mirror_shape R) i j).trans ((cross2_symm _ _ _ i j).trans (congrFun₂ (mirror_shape R) j i).symm)
  | waveguide length loss neff wl0 ng phase =>
    intro i j
    have h := waveguide_shape length loss neff wl0 ng phase wl
    exact (congrFun₂ h i j).trans ((cross2_symm _ _ _ i j).trans (congrFun₂ h j i).symm)
  | coupler k =>
    intro i j
    have h := coupler_shape k
    exact (congrFun₂ h i j).trans ((cross4_symm _ _ _ _ i j).trans (congrFun₂ h j i).symm)
  | longCoupler length k loss neff wl0 ng phase =>
    intro i j
    have h := longCoupler_shape length k loss phase
    refine (congrFun₂ h i j).trans (Eq.trans ?_ (congrFun₂ h j i).symm)
    rw [Matrix.smul_apply, Matrix.smul_apply, cross4_symm]
  | realisticCoupler length k0 n0 d1k d1n d2k d2n wl0 =>
    intro i j
    obtain ⟨φ, h⟩ := realisticCoupler_shape length k0 n0 d1k d1n d2k d2n wl0 wl
    exact (congrFun₂ h i j).trans ((cross4_symm _ _ _ _ i j).trans (congrFun₂ h j i).symm)
  | mzi phi theta neff ng wl0 length loss =>
    intro i j
    obtain ⟨x, -, h⟩ := mzi_shape phi theta length neff wl0 ng wl
    exact (congrFun₂ h i j).trans ((cross4_symm _ _ _ _ i j).trans (congrFun₂ h j i).symm)
  | grating R Rin Tmax bw wl0 =>
    intro i j
    obtain ⟨t, -, -, h⟩ := grating_shape R Rin Tmax bw wl0 wl
    exact (congrFun₂ h i j).trans ((cross2_symm _ _ _ i j).trans (congrFun₂ h j i).symm)
  | linearSoa a => exact absurd rfl (hp a)
  | mmi m n re im =>
    intro i j
    simp only [scattering, cx, Part.S, mmiS, Matrix.of_apply]
    split_ifs <;> simp_all

example : SymmetricS (scattering (.grating (1 / 10) (2 / 10) 1 0.06e-6 1.55e-6) 1.54e-6) :=
  C43_reciprocal_partial _ (by intro a h; cases h) _

/-- C43 is violated by `LinearSoa`, for every amplification: whatever enters port 0 gets lost, nothing leaves port 1; instead,
the wave entering port 1 leaves port 0 amplified. -/
theorem C43_violation (a wl : ℝ) (v : Fin 2 → ℂ) :
    (scattering (.linearSoa a) wl *ᵥ v) 1 = 0 ∧ (scattering (.linearSoa a) wl *ᵥ v) 0 = a * v 1 := by
  have h : scattering (.linearSoa a) wl = (!![0, (a : ℂ); 0, 0] : Matrix (Fin 2) (Fin 2) ℂ) := by
    ext i j
    fin_cases i <;> fin_cases j <;> apply Complex.ext <;>
      simp [scattering, cx, Part.S, linearSoaS, SMat.setRe, SMat.zero]
  constructor
  · refine (congrArg (fun M : Matrix (Fin 2) (Fin 2) ℂ => (M *ᵥ v) 1) h).trans ?_
    simp [Matrix.mulVec, dotProduct, Fin.sum_univ_two]
  · refine (congrArg (fun M : Matrix (Fin 2) (Fin 2) ℂ => (M *ᵥ v) 0) h).trans ?_
    simp [Matrix.mulVec, dotProduct, Fin.sum_univ_two]

example : (scattering (.linearSoa 2) 1.55e-6 *ᵥ (![1, 0] : Fin 2 → ℂ)) 1 = 0 := (C43_violation 2 1.55e-6 ![1, 0]).1

/-! ## C44 -/

/-- C44 (what holds): a waveguide of given loss and length passes on the remaining fraction of the power, … -/
theorem C44_waveguide_partial (length loss neff wl0 ng phase wl : ℝ) (v : Fin 2 → ℂ) :
    power (scattering (.waveguide length loss neff wl0 ng phase) wl *ᵥ v) = remaining loss length * power v :=
  waveguide_power length loss neff wl0 ng phase wl v

example : power (scattering (.waveguide 0.01 (300 : ℝ) 2.34 1.55e-6 3.4 0) 1.55e-6 *ᵥ (![1, 0] : Fin 2 → ℂ)) =
    remaining 300 0.01 * power (![1, 0] : Fin 2 → ℂ) := C44_waveguide_partial ..

/-- … and so does a coupler with length. -/
theorem C44_coupler_partial (length k loss neff wl0 ng phase wl : ℝ) (h0 : 0 ≤ k) (h1 : k ≤ 1) (v : Fin 4 → ℂ) :
    power (scattering (.longCoupler length k loss neff wl0 ng phase) wl *ᵥ v) = remaining loss length * power v :=
  longCoupler_power length k loss neff wl0 ng phase wl h0 h1 v

example (v : Fin 4 → ℂ) : power (scattering (.longCoupler 0.01 (1 / 2) 300 2.34 1.55e-6 3.4 0) 1.55e-6 *ᵥ v) =
    remaining 300 0.01 * power v := C44_coupler_partial _ _ _ _ _ _ _ _ (by norm_num) (by norm_num) v

theorem remaining_lt (loss length : ℝ) (h : 0 < loss * length) : remaining loss length < 1 := by
  unfold remaining
  apply Real.rpow_lt_one_of_one_lt_of_neg (by norm_num)
  linarith

/-- C44 is violated by `Mzi`: with a loss and a length it still passes on all the power. -/
theorem C44_violation (phi theta neff ng wl0 length loss wl : ℝ) (h : 0 < loss * length) (v : Fin 4 → ℂ)
    (hv : 0 < power v) :
    power (scattering (.mzi phi theta neff ng wl0 length loss) wl *ᵥ v) = power v ∧
    remaining loss length * power v < power v := by
  refine ⟨C42_unitary (.mzi phi theta neff ng wl0 length loss) trivial wl v, ?_⟩
  have := remaining_lt loss length h
  nlinarith

example : power (scattering (.mzi 0 1 2.34 3.4 1.55e-6 1e-2 300) 1.55e-6 *ᵥ (![1, 0, 0, 0] : Fin 4 → ℂ)) =
    power (![1, 0, 0, 0] : Fin 4 → ℂ) :=
  (C44_violation 0 1 2.34 3.4 1.55e-6 1e-2 300 1.55e-6 (by norm_num) ![1, 0, 0, 0]
    (by simp [power, Fin.sum_univ_four])).1

/-! ## C45 -/

theorem exp_mod (x : ℝ) : Complex.exp ((modTwoPi x : ℝ) * Complex.I) = Complex.exp ((x : ℝ) * Complex.I) := by
  have h : ((modTwoPi x : ℝ) : ℂ) * Complex.I = x * Complex.I - (⌊x / (2 * Real.pi)⌋ : ℂ) * (2 * Real.pi * Complex.I) := by
    unfold modTwoPi
    push_cast
    ring
  rw [h, Complex.exp_sub, Complex.exp_int_mul_two_pi_mul_I, div_one]

/-- The transmission of a waveguide. -/
theorem waveguide_entry (length loss neff wl0 ng phase wl : ℝ) :
    scattering (.waveguide length loss neff wl0 ng phase) wl = (cross2 0 (lossFactor loss length *
      Complex.exp ((2 * Real.pi * neffAt neff wl0 ng wl * length / wl + phase : ℝ) * Complex.I)) 0 :
      Matrix (Fin 2) (Fin 2) ℂ) := by
  refine (waveguide_shape length loss neff wl0 ng phase wl).trans ?_
  congr 2
  rw [Complex.ofReal_add, add_mul, Complex.exp_add, exp_mod, propagation, exp_mod, ← Complex.exp_add, ← add_mul,
    ← Complex.ofReal_add]

/-- C45: two waveguides of the same kind in series (port 1 of the first connected to port 0 of the second) scatter the
waves entering the two remaining ports like one waveguide with the sum of the lengths and phases; and their delays
add up, too. -/
theorem C45_series (l₁ l₂ loss neff wl0 ng φ₁ φ₂ wl c : ℝ) (a₁ b₁ a₂ b₂ : Fin 2 → ℂ)
    (h₁ : b₁ = scattering (.waveguide l₁ loss neff wl0 ng φ₁) wl *ᵥ a₁)
    (h₂ : b₂ = scattering (.waveguide l₂ loss neff wl0 ng φ₂) wl *ᵥ a₂)
    (h₃ : a₁ 1 = b₂ 0) (h₄ : a₂ 0 = b₁ 1) :
    (![b₁ 0, b₂ 1] : Fin 2 → ℂ) =
      scattering (.waveguide (l₁ + l₂) loss neff wl0 ng (φ₁ + φ₂)) wl *ᵥ (![a₁ 0, a₂ 1] : Fin 2 → ℂ) ∧
    Part.delay c (.waveguide (l₁ + l₂) loss neff wl0 ng (φ₁ + φ₂)) =
      Part.delay c (.waveguide l₁ loss neff wl0 ng φ₁) + Part.delay c (.waveguide l₂ loss neff wl0 ng φ₂) := by
  constructor
  · set t₁ := (lossFactor loss l₁ *
      Complex.exp ((2 * Real.pi * neffAt neff wl0 ng wl * l₁ / wl + φ₁ : ℝ) * Complex.I)) with ht₁
    set t₂ := (lossFactor loss l₂ *
      Complex.exp ((2 * Real.pi * neffAt neff wl0 ng wl * l₂ / wl + φ₂ : ℝ) * Complex.I)) with ht₂
    have e₁ : b₁ = (cross2 0 t₁ 0 : Matrix (Fin 2) (Fin 2) ℂ) *ᵥ a₁ :=
      h₁.trans (congrArg (fun M : Matrix (Fin 2) (Fin 2) ℂ => M *ᵥ a₁) (waveguide_entry ..))
    have e₂ : b₂ = (cross2 0 t₂ 0 : Matrix (Fin 2) (Fin 2) ℂ) *ᵥ a₂ :=
      h₂.trans (congrArg (fun M : Matrix (Fin 2) (Fin 2) ℂ => M *ᵥ a₂) (waveguide_entry ..))
    refine Eq.symm ((congrArg (fun M : Matrix (Fin 2) (Fin 2) ℂ => M *ᵥ (![a₁ 0, a₂ 1] : Fin 2 → ℂ))
      (waveguide_entry (l₁ + l₂) loss neff wl0 ng (φ₁ + φ₂) wl)).trans ?_)
    have ht : (lossFactor loss (l₁ + l₂) *
        Complex.exp ((2 * Real.pi * neffAt neff wl0 ng wl * (l₁ + l₂) / wl + (φ₁ + φ₂) : ℝ) * Complex.I)) = t₁ * t₂ := by
      have hl : lossFactor loss (l₁ + l₂) = lossFactor loss l₁ * lossFactor loss l₂ := by
        unfold lossFactor
        rw [← Real.rpow_add (by norm_num)]
        congr 1
        ring
      rw [ht₁, ht₂, hl, show (2 * Real.pi * neffAt neff wl0 ng wl * (l₁ + l₂) / wl + (φ₁ + φ₂) : ℝ) =
        (2 * Real.pi * neffAt neff wl0 ng wl * l₁ / wl + φ₁) + (2 * Real.pi * neffAt neff wl0 ng wl * l₂ / wl + φ₂) by
        ring, Complex.ofReal_add, add_mul, Complex.exp_add, Complex.ofReal_mul]
      ring
    rw [ht]
    have m : ∀ (t : ℂ) (v : Fin 2 → ℂ), (cross2 0 t 0 : Matrix (Fin 2) (Fin 2) ℂ) *ᵥ v = ![t * v 1, t * v 0] := by
      intro t v
      ext i
      fin_cases i <;> simp [cross2, Matrix.mulVec, dotProduct, Fin.sum_univ_two]
    rw [m] at e₁ e₂ ⊢
    have f₁ : b₁ 0 = t₁ * a₁ 1 := congrFun e₁ 0
    have f₂ : b₁ 1 = t₁ * a₁ 0 := congrFun e₁ 1
    have f₃ : b₂ 0 = t₂ * a₂ 1 := congrFun e₂ 0
    have f₄ : b₂ 1 = t₂ * a₂ 0 := congrFun e₂ 1
    have g₁ : b₁ 0 = t₁ * t₂ * a₂ 1 := by rw [f₁, h₃, f₃]; ring
    have g₂ : b₂ 1 = t₁ * t₂ * a₁ 0 := by rw [f₄, h₄, f₂]; ring
    rw [g₁, g₂]
    rfl
  · simp only [Part.delay, lengthDelay]
    ring

/-- Waves travelling through a line of two waveguides. -/
example : ∃ a₁ b₁ a₂ b₂ : Fin 2 → ℂ, b₁ = scattering (.waveguide 1e-5 100 2.34 1.55e-6 3.4 1) 1.5e-6 *ᵥ a₁ ∧
    b₂ = scattering (.waveguide 2e-5 100 2.34 1.55e-6 3.4 2) 1.5e-6 *ᵥ a₂ ∧ a₁ 1 = b₂ 0 ∧ a₂ 0 = b₁ 1 ∧ a₁ 0 = 1 := by
  obtain ⟨t, ht⟩ : ∃ t : ℂ, scattering (.waveguide 1e-5 100 2.34 1.55e-6 3.4 1) 1.5e-6 =
    (cross2 0 t 0 : Matrix (Fin 2) (Fin 2) ℂ) := ⟨_, waveguide_entry ..⟩
  obtain ⟨u, hu⟩ : ∃ u : ℂ, scattering (.waveguide 2e-5 100 2.34 1.55e-6 3.4 2) 1.5e-6 =
    (cross2 0 u 0 : Matrix (Fin 2) (Fin 2) ℂ) := ⟨_, waveguide_entry ..⟩
  refine ⟨![1, 0], ![0, t], ![t, 0], ![0, u * t], ?_, ?_, rfl, rfl, rfl⟩
  · refine Eq.symm ((congrArg (fun M : Matrix (Fin 2) (Fin 2) ℂ => M *ᵥ (![1, 0] : Fin 2 → ℂ)) ht).trans ?_)
    ext i
    fin_cases i <;> simp [cross2, Matrix.mulVec, dotProduct, Fin.sum_univ_two]
  · refine Eq.symm ((congrArg (fun M : Matrix (Fin 2) (Fin 2) ℂ => M *ᵥ (![t, 0] : Fin 2 → ℂ)) hu).trans ?_)
    ext i
    fin_cases i <;> simp [cross2, Matrix.mulVec, dotProduct, Fin.sum_univ_two]

/-- C45: phases differing by a multiple of `2π` give the same waveguide. -/
theorem C45_phase (l loss neff wl0 ng φ wl : ℝ) (k : ℤ) :
    scattering (.waveguide l loss neff wl0 ng (φ + 2 * Real.pi * k)) wl =
      scattering (.waveguide l loss neff wl0 ng φ) wl := by
  refine (waveguide_entry ..).trans (Eq.trans ?_ (waveguide_entry ..).symm)
  congr 2
  rw [show (2 * Real.pi * neffAt neff wl0 ng wl * l / wl + (φ + 2 * Real.pi * k) : ℝ) =
    (2 * Real.pi * neffAt neff wl0 ng wl * l / wl + φ) + 2 * Real.pi * k by ring, Complex.ofReal_add, add_mul,
    Complex.exp_add]
  have : ((2 * Real.pi * k : ℝ) : ℂ) * Complex.I = (k : ℂ) * (2 * Real.pi * Complex.I) := by push_cast; ring
  rw [this, Complex.exp_int_mul_two_pi_mul_I, mul_one]

example : scattering (.waveguide 1e-5 0 2.34 1.55e-6 3.4 (1 + 2 * Real.pi * (3 : ℤ))) 1.5e-6 =
    scattering (.waveguide 1e-5 0 2.34 1.55e-6 3.4 1) 1.5e-6 := C45_phase ..

/-! ## C64 -/

/-- C64, exactly when it holds: a coupler with length acts like a coupler followed by a waveguide of this length, loss and phase only
if the propagation over its length is a multiple of `2π`: the propagation is left out. -/
theorem C64_iff (length k loss neff wl0 ng phase wl : ℝ) (h0 : 0 ≤ k) (h1 : k ≤ 1) :
    (∀ i j, scattering (.longCoupler length k loss neff wl0 ng phase) wl i j =
      scattering (.waveguide length loss neff wl0 ng phase) wl 1 0 * scattering (.coupler k) wl i j) ↔
    ∃ m : ℤ, neffAt neff wl0 ng wl * length / wl = m := by
  have hc := coupler_shape k
  have hl := longCoupler_shape length k loss phase
  have hw : scattering (.waveguide length loss neff wl0 ng phase) wl 1 0 = lossFactor loss length *
      Complex.exp ((2 * Real.pi * neffAt neff wl0 ng wl * length / wl + phase : ℝ) * Complex.I) :=
    congrFun₂ (waveguide_entry length loss neff wl0 ng phase wl) 1 0
  have hpos : (lossFactor loss length : ℂ) ≠ 0 := by
    have : 0 < lossFactor loss length := Real.rpow_pos_of_pos (by norm_num) _
    exact_mod_cast this.ne'
  have key : (Complex.exp ((modTwoPi phase : ℝ) * Complex.I) =
      Complex.exp ((2 * Real.pi * neffAt neff wl0 ng wl * length / wl + phase : ℝ) * Complex.I)) ↔
      ∃ m : ℤ, neffAt neff wl0 ng wl * length / wl = m := by
    rw [exp_mod, Complex.exp_eq_exp_iff_exists_int]
    constructor
    · rintro ⟨m, hm⟩
      refine ⟨-m, ?_⟩
      have h2 : (phase : ℂ) * Complex.I = ((2 * Real.pi * neffAt neff wl0 ng wl * length / wl + phase) + m * (2 * Real.pi) : ℝ) *
          Complex.I := by rw [hm]; push_cast; ring
      have h3 := mul_right_cancel₀ Complex.I_ne_zero h2
      have h4 : phase = (2 * Real.pi * neffAt neff wl0 ng wl * length / wl + phase) + m * (2 * Real.pi) := by
        exact_mod_cast h3
      have h5 : 2 * Real.pi * (neffAt neff wl0 ng wl * length / wl + m) = 0 := by
        have : 2 * Real.pi * neffAt neff wl0 ng wl * length / wl = 2 * Real.pi * (neffAt neff wl0 ng wl * length / wl) := by
          ring
        linarith
      have h6 := (mul_eq_zero.1 h5).resolve_left (by positivity)
      push_cast
      linarith
    · rintro ⟨m, hm⟩
      refine ⟨-m, ?_⟩
      have : 2 * Real.pi * neffAt neff wl0 ng wl * length / wl = 2 * Real.pi * m := by rw [← hm]; ring
      rw [this]
      push_cast
      ring
  rw [← key]
  constructor
  · intro h
    have hne : ∃ i j : Fin 4, cross4 ⟨√(1 - k), 0⟩ ⟨0, √k⟩ ⟨0, √k⟩ ⟨√(1 - k), 0⟩ i j ≠ 0 := by
      by_cases hk : k = 0
      · refine ⟨0, 1, ?_⟩
        intro he
        have := congrArg Complex.re he
        simp [cross4, hk] at this
      · refine ⟨0, 2, ?_⟩
        intro he
        have := congrArg Complex.im he
        simp [cross4] at this
        have h3 := (Real.sqrt_eq_zero h0).1 this
        exact hk h3
    obtain ⟨i, j, hij⟩ := hne
    have h2 := h i j
    rw [hw] at h2
    have h3 : lossFactor loss length * Complex.exp ((modTwoPi phase : ℝ) * Complex.I) *
        cross4 ⟨√(1 - k), 0⟩ ⟨0, √k⟩ ⟨0, √k⟩ ⟨√(1 - k), 0⟩ i j = lossFactor loss length *
        Complex.exp ((2 * Real.pi * neffAt neff wl0 ng wl * length / wl + phase : ℝ) * Complex.I) *
        cross4 ⟨√(1 - k), 0⟩ ⟨0, √k⟩ ⟨0, √k⟩ ⟨√(1 - k), 0⟩ i j :=
      (congrFun₂ hl i j).symm.trans (h2.trans (congrArg (_ * ·) (congrFun₂ hc i j)))
    exact mul_left_cancel₀ hpos (mul_right_cancel₀ hij h3)
  · intro h i j
    rw [hw, ← h]
    exact (congrFun₂ hl i j).trans (congrArg (_ * ·) (congrFun₂ hc i j).symm)

/-- C64 is violated with the default parameters at the centre wavelength. -/
theorem C64_violation : ¬ ∀ i j, scattering (.longCoupler 1e-5 (1 / 2) 0 2.34 1.55e-6 3.4 0) 1.55e-6 i j =
    scattering (.waveguide 1e-5 0 2.34 1.55e-6 3.4 0) 1.55e-6 1 0 * scattering (.coupler (1 / 2)) 1.55e-6 i j := by
  intro h
  obtain ⟨m, hm⟩ := (C64_iff 1e-5 (1 / 2) 0 2.34 1.55e-6 3.4 0 1.55e-6 (by norm_num) (by norm_num)).1 h
  have h1 : (m : ℝ) = 468 / 31 := by
    rw [← hm]; unfold neffAt; norm_num
  have h2 : (m : ℝ) * 31 = 468 := by rw [h1]; norm_num
  have h3 : m * 31 = 468 := by exact_mod_cast h2
  omega

/-! ## C65 -/

theorem contracts_of_le {n : ℕ} {S : Matrix (Fin n) (Fin n) ℂ} (r : ℝ) (hr : r ≤ 1)
    (h : ∀ v, power (S *ᵥ v) = r * power v) : Contracts S := by
  intro v
  rw [h v]
  have : 0 ≤ power v := Finset.sum_nonneg fun i _ => Complex.normSq_nonneg _
  nlinarith

/-- C65 (what holds): all passive components other than grating couplers never emit more power than they receive. -/
theorem C65_contracts_partial (p : Part) (hp : PassivePart p) (hg : ∀ R Rin T bw wl0, p ≠ .grating R Rin T bw wl0)
    (wl : ℝ) : Contracts (scattering p wl) := by
  have hz : ∀ q : Part, (∀ i j, scattering q wl i j = 0) → Contracts (scattering q wl) := by
    intro q hq v
    have h0 : scattering q wl *ᵥ v = 0 := by
      ext i
      simp [Matrix.mulVec, dotProduct, hq]
    rw [h0]
    have h1 : power (0 : Fin q.n → ℂ) = 0 := by simp [power]
    rw [h1]
    exact Finset.sum_nonneg fun i _ => Complex.normSq_nonneg _
  have hu : ∀ q : Part, IdealPart q → Contracts (scattering q wl) := fun q hq v => (C42_unitary q hq wl v).le
  cases p with
  | term => exact hz _ fun i j => rfl
  | source => exact hz _ fun i j => rfl
  | detector => exact hz _ fun i j => rfl
  | connection => exact hu _ trivial
  | mirror R => exact hu (.mirror R) hp
  | waveguide length loss neff wl0 ng phase =>
    exact contracts_of_le _ (remaining_le loss length (mul_nonneg hp.2 hp.1)).2 (waveguide_power length loss neff wl0 ng phase wl)
  | coupler k => exact hu (.coupler k) hp
  | longCoupler length k loss neff wl0 ng phase =>
    exact contracts_of_le _ (remaining_le loss length (mul_nonneg hp.2.2.2 hp.2.2.1)).2
      (longCoupler_power length k loss neff wl0 ng phase wl hp.1 hp.2.1)
  | realisticCoupler => exact hu (.realisticCoupler ..) trivial
  | mzi => exact hu (.mzi ..) trivial
  | grating R Rin T bw wl0 => exact absurd rfl (hg R Rin T bw wl0)
  | linearSoa => exact hp.elim
  | mmi => exact hp.elim

example : Contracts (scattering (.waveguide 1 3 2.34 1.55e-6 3.4 0) 1.5e-6) :=
  C65_contracts_partial _ (show PassivePart (.waveguide 1 3 2.34 1.55e-6 3.4 0) from ⟨by norm_num, by norm_num⟩)
    (by intro _ _ _ _ _ h; cases h) _

/-- C65 is violated by every grating coupler with full transmission and some reflection: light entering port 1 at the centre
wavelength is amplified. -/
theorem C65_violation (R Rin bw wl0 : ℝ) (hR : 0 < R) (hbw : bw ≠ 0) :
    1 < power (scattering (.grating R Rin 1 bw wl0) wl0 *ᵥ (![0, 1] : Fin 2 → ℂ)) ∧
    power (![0, 1] : Fin 2 → ℂ) = 1 := by
  obtain ⟨t, ht, -, h⟩ := grating_shape R Rin 1 bw wl0 wl0
  have ht1 : t = 1 := by rw [ht hbw]; simp
  constructor
  · refine lt_of_lt_of_eq ?_ (congrArg (fun M : Matrix (Fin 2) (Fin 2) ℂ => power (M *ᵥ (![0, 1] : Fin 2 → ℂ))) h).symm
    rw [cross2_power, ht1]
    simp [Complex.normSq_apply]
    positivity
  · simp [power, Fin.sum_univ_two]

example : 1 < power (scattering (.grating (1 / 2) 0 1 0.06e-6 1.55e-6) 1.55e-6 *ᵥ (![0, 1] : Fin 2 → ℂ)) :=
  (C65_violation (1 / 2) 0 0.06e-6 1.55e-6 (by norm_num) (by norm_num)).1

/-- C65 (what holds for grating couplers): with equal reflections, the power that leaves is at most the fraction
`R ^ 2 + Tmax` of what enters. -/
theorem C65_grating_partial (R Tmax bw wl0 wl : ℝ) (hT : 0 ≤ Tmax) (h : R ^ 2 + Tmax ≤ 1) :
    Contracts (scattering (.grating R R Tmax bw wl0) wl) := by
  obtain ⟨t, ht, ht0, hs⟩ := grating_shape R R Tmax bw wl0 wl
  have ht2 : t ^ 2 ≤ Tmax := by
    by_cases hb : bw = 0
    · rw [ht0 hb]
      simpa using hT
    rw [ht hb, Real.sq_sqrt (by positivity)]
    have : Real.exp (-((wl0 - wl) ^ 2) / (2 * (1 / (2 * √(2 * Real.log 2)) * bw) ^ 2)) ≤ 1 := by
      rw [Real.exp_le_one_iff]
      apply div_nonpos_of_nonpos_of_nonneg
      · nlinarith [sq_nonneg (wl0 - wl)]
      · positivity
    nlinarith
  intro v
  refine le_of_eq_of_le (congrArg (fun M : Matrix (Fin 2) (Fin 2) ℂ => power (M *ᵥ v)) hs) ?_
  show power (cross2 _ _ _ *ᵥ v) ≤ _
  rw [cross2_power]
  unfold power
  rw [Fin.sum_univ_two]
  simp only [Complex.normSq_apply, Complex.add_re, Complex.add_im, Complex.mul_re, Complex.mul_im, zero_mul, sub_zero,
    add_zero, zero_sub, zero_add]
  have hle : R ^ 2 + t ^ 2 ≤ 1 := by linarith
  nlinarith [sq_nonneg (v 0).re, sq_nonneg (v 0).im, sq_nonneg (v 1).re, sq_nonneg (v 1).im,
    mul_nonneg (sub_nonneg.2 hle) (add_nonneg (add_nonneg (sq_nonneg (v 0).re) (sq_nonneg (v 0).im))
      (add_nonneg (sq_nonneg (v 1).re) (sq_nonneg (v 1).im)))]

example : Contracts (scattering (.grating 0.3 0.3 0.9 0.06e-6 1.55e-6) 1.5e-6) :=
  C65_grating_partial _ _ _ _ _ (by norm_num) (by norm_num)

/-- A quadratic form in two variables without negative values. -/
theorem form_nonneg (p q c : ℝ) : (∀ x y : ℝ, 0 ≤ p * x ^ 2 + 2 * c * x * y + q * y ^ 2) ↔ 0 ≤ p ∧ 0 ≤ q ∧ c ^ 2 ≤ p * q := by
  constructor
  · intro h
    have hp : 0 ≤ p := by simpa using h 1 0
    have hq : 0 ≤ q := by simpa using h 0 1
    refine ⟨hp, hq, ?_⟩
    rcases hp.eq_or_lt with rfl | hp
    · rcases hq.eq_or_lt with rfl | hq
      · nlinarith [h 1 (-c)]
      · have := h (-q) c
        nlinarith
    · have := h c (-p)
      by_contra hn
      push Not at hn
      nlinarith
  · rintro ⟨hp, hq, hc⟩ x y
    rcases hp.eq_or_lt with rfl | hp
    · have : c = 0 := by nlinarith [sq_nonneg c]
      subst this
      nlinarith [mul_nonneg hq (sq_nonneg y)]
    · have : 0 ≤ p * (p * x ^ 2 + 2 * c * x * y + q * y ^ 2) := by
        nlinarith [sq_nonneg (p * x + c * y), mul_nonneg (sub_nonneg.2 hc) (sq_nonneg y)]
      exact nonneg_of_mul_nonneg_right this hp

/-- C65 (grating couplers, exactly): with the fraction `T` of power transmitted at the wavelength, a grating coupler never emits more
power than it receives if and only if neither port emits too much by itself and the interference of the two is not too strong. -/
theorem C65_grating_iff_partial (R Rin Tmax bw wl0 wl : ℝ) :
    let T := ‖scattering (.grating R Rin Tmax bw wl0) wl (1 : Fin 2) (0 : Fin 2)‖ ^ 2
    Contracts (scattering (.grating R Rin Tmax bw wl0) wl) ↔
      Rin ^ 2 + T ≤ 1 ∧ R ^ 2 + T ≤ 1 ∧ T * (R - Rin) ^ 2 ≤ (1 - Rin ^ 2 - T) * (1 - R ^ 2 - T) := by
  intro T
  obtain ⟨t, -, -, hs⟩ := grating_shape R Rin Tmax bw wl0 wl
  have hT : T = t ^ 2 := by
    show ‖scattering (.grating R Rin Tmax bw wl0) wl (1 : Fin 2) (0 : Fin 2)‖ ^ 2 = _
    rw [show scattering (.grating R Rin Tmax bw wl0) wl (1 : Fin 2) (0 : Fin 2) = (⟨t, 0⟩ : ℂ) from
      congrFun (congrFun hs 1) 0, ← Complex.normSq_eq_norm_sq, Complex.normSq_mk]
    ring
  have hpow : ∀ v : Fin 2 → ℂ, power (v) - power (scattering (.grating R Rin Tmax bw wl0) wl *ᵥ v) =
      ((1 - Rin ^ 2 - t ^ 2) * (v 0).re ^ 2 + 2 * (t * (R - Rin)) * (v 0).re * (v 1).im + (1 - R ^ 2 - t ^ 2) * (v 1).im ^ 2) +
      ((1 - Rin ^ 2 - t ^ 2) * (v 0).im ^ 2 + 2 * (t * (R - Rin)) * (v 0).im * (-(v 1).re) + (1 - R ^ 2 - t ^ 2) * (-(v 1).re) ^ 2) := by
    intro v
    have e : power (scattering (.grating R Rin Tmax bw wl0) wl *ᵥ v) = power (cross2 ⟨0, Rin⟩ ⟨t, 0⟩ ⟨0, R⟩ *ᵥ v) :=
      congrArg (fun M : Matrix (Fin 2) (Fin 2) ℂ => power (M *ᵥ v)) hs
    rw [e, cross2_power]
    unfold power
    rw [Fin.sum_univ_two]
    simp only [Complex.normSq_apply, Complex.add_re, Complex.add_im, Complex.mul_re, Complex.mul_im, zero_mul, sub_zero,
      add_zero, zero_sub, zero_add]
    ring
  have key := form_nonneg (1 - Rin ^ 2 - t ^ 2) (1 - R ^ 2 - t ^ 2) (t * (R - Rin))
  have e1 : (Rin ^ 2 + T ≤ 1 ∧ R ^ 2 + T ≤ 1 ∧ T * (R - Rin) ^ 2 ≤ (1 - Rin ^ 2 - T) * (1 - R ^ 2 - T)) ↔
      (0 ≤ 1 - Rin ^ 2 - t ^ 2 ∧ 0 ≤ 1 - R ^ 2 - t ^ 2 ∧ (t * (R - Rin)) ^ 2 ≤ (1 - Rin ^ 2 - t ^ 2) * (1 - R ^ 2 - t ^ 2)) := by
    rw [hT, mul_pow]
    constructor <;> rintro ⟨h1, h2, h3⟩ <;> exact ⟨by linarith, by linarith, h3⟩
  rw [e1, ← key]
  constructor
  · intro h x y
    have h1 := hpow ![(x : ℂ), ⟨0, y⟩]
    have h2 := h ![(x : ℂ), ⟨0, y⟩]
    simp only [Matrix.cons_val_zero, Matrix.cons_val_one, Complex.ofReal_re, Complex.ofReal_im, neg_zero] at h1
    nlinarith [h1, h2]
  · intro h v
    have h1 := hpow v
    have h2 := h (v 0).re (v 1).im
    have h3 := h (v 0).im (-(v 1).re)
    linarith

/-- Different reflections need more room than equal ones: half of the power transmitted, reflections 0.7 and -0.7. -/
example : ¬Contracts (scattering (.grating 0.7 (-0.7) 0.5 0.06e-6 1.55e-6) 1.55e-6) ∧
    Contracts (scattering (.grating 0.7 0.7 0.5 0.06e-6 1.55e-6) 1.55e-6) := by
  obtain ⟨t, ht, -, hs⟩ := grating_shape 0.7 (-0.7) 0.5 0.06e-6 1.55e-6 1.55e-6
  refine ⟨?_, C65_grating_partial _ _ _ _ _ (by norm_num) (by norm_num)⟩
  have h := C65_grating_iff_partial 0.7 (-0.7) 0.5 0.06e-6 1.55e-6 1.55e-6
  simp only at h
  have hT : ‖scattering (.grating 0.7 (-0.7) 0.5 0.06e-6 1.55e-6) 1.55e-6 (1 : Fin 2) (0 : Fin 2)‖ ^ 2 = 0.5 := by
    rw [show scattering (.grating 0.7 (-0.7) 0.5 0.06e-6 1.55e-6) 1.55e-6 (1 : Fin 2) (0 : Fin 2) = (⟨t, 0⟩ : ℂ) from
      congrFun (congrFun hs 1) 0, ← Complex.normSq_eq_norm_sq, Complex.normSq_mk, ht (by norm_num), mul_zero, add_zero,
      Real.mul_self_sqrt (by positivity)]
    simp
  rw [hT] at h
  rw [h]
  norm_num

/-! ## C48 -/

/-- A linear map preserves the power if and only if its columns are orthonormal. -/
theorem isometry_iff {α β : Type} [Fintype α] [Fintype β] [DecidableEq α] (A : β → α → ℂ) :
    (∀ u : α → ℂ, ∑ j, Complex.normSq (∑ i, A j i * u i) = ∑ i, Complex.normSq (u i)) ↔
    ∀ i i', ∑ j, starRingEnd ℂ (A j i) * A j i' = if i = i' then 1 else 0 := by
  have expand : ∀ u : α → ℂ, ((∑ j, Complex.normSq (∑ i, A j i * u i) : ℝ) : ℂ) =
      ∑ i, ∑ i', starRingEnd ℂ (u i) * u i' * ∑ j, starRingEnd ℂ (A j i) * A j i' := by
    intro u
    rw [Complex.ofReal_sum]
    have h1 : ∀ j, ((Complex.normSq (∑ i, A j i * u i) : ℝ) : ℂ) =
        ∑ i, ∑ i', starRingEnd ℂ (u i) * u i' * (starRingEnd ℂ (A j i) * A j i') := by
      intro j
      rw [← Complex.mul_conj, mul_comm, map_sum, Finset.sum_mul_sum]
      refine Finset.sum_congr rfl fun i _ => Finset.sum_congr rfl fun i' _ => ?_
      rw [map_mul]
      ring
    rw [Finset.sum_congr rfl fun j _ => h1 j, Finset.sum_comm]
    refine Finset.sum_congr rfl fun i _ => ?_
    rw [Finset.sum_comm]
    refine Finset.sum_congr rfl fun i' _ => ?_
    rw [Finset.mul_sum]
  constructor
  · intro h
    set G : α → α → ℂ := fun i i' => ∑ j, starRingEnd ℂ (A j i) * A j i' with hG
    have e : ∀ u : α → ℂ, ∑ i, ∑ i', starRingEnd ℂ (u i) * u i' * G i i' = ((∑ i, Complex.normSq (u i) : ℝ) : ℂ) :=
      fun u => by rw [← h u]; exact (expand u).symm
    have two : ∀ (i k : α) (c : ℂ), i ≠ k → G i i + starRingEnd ℂ c * c * G k k + c * G i k + starRingEnd ℂ c * G k i =
        1 + Complex.normSq c := by
      intro i k c hik
      have := e (fun l => if l = i then 1 else if l = k then c else 0)
      have hs : ∀ F : α → ℂ, (∀ l, l ≠ i → l ≠ k → F l = 0) → ∑ l, F l = F i + F k := by
        intro F hF
        rw [← Finset.sum_pair hik]
        refine (Finset.sum_subset (Finset.subset_univ _) ?_).symm
        intro l _ hl
        simp only [Finset.mem_insert, Finset.mem_singleton, not_or] at hl
        exact hF l hl.1 hl.2
      rw [Complex.ofReal_sum] at this
      rw [hs _ (by intro l h1 h2; simp [h1, h2]), hs _ (by intro l h1 h2; simp [h1, h2]),
        hs _ (by intro l h1 h2; simp [h1, h2]), hs _ (by intro l h1 h2; simp [h1, h2])] at this
      simp only [hik.symm, if_true, if_false, map_one, one_mul, mul_one, Complex.ofReal_one] at this
      rw [← this]
      ring
    have one : ∀ i, G i i = 1 := by
      intro i
      have := e (fun l => if l = i then 1 else 0)
      have hs : ∀ F : α → ℂ, (∀ l, l ≠ i → F l = 0) → ∑ l, F l = F i := fun F hF =>
        Finset.sum_eq_single i (fun l _ hl => hF l hl) (by simp)
      rw [Complex.ofReal_sum, hs _ (by intro l h1; simp [h1]), hs _ (by intro l h1; simp [h1]),
        hs _ (by intro l h1; simp [h1])] at this
      simpa using this
    intro i k
    split_ifs with hik
    · rw [← hik]; exact one i
    · have h1 := two i k 1 hik
      have h2 := two i k Complex.I hik
      rw [one, one] at h1 h2
      simp only [map_one, one_mul, mul_one, Complex.conj_I, Complex.normSq_I, neg_mul, Complex.I_mul_I, neg_neg,
        Complex.ofReal_one] at h1 h2
      have h3 : G i k + G k i = 0 := by linear_combination h1
      have h4 : Complex.I * (G i k - G k i) = 0 := by linear_combination h2
      have h5 := (mul_eq_zero.1 h4).resolve_left Complex.I_ne_zero
      show G i k = 0
      linear_combination (h3 + h5) / 2
  · intro h u
    have := expand u
    simp only [h, mul_ite, mul_one, mul_zero, Finset.sum_ite_eq, Finset.mem_univ, if_true] at this
    have h2 : ∀ i, starRingEnd ℂ (u i) * u i = ((Complex.normSq (u i) : ℝ) : ℂ) := fun i => by
      rw [← Complex.mul_conj, mul_comm]
    rw [Finset.sum_congr rfl fun i _ => h2 i, ← Complex.ofReal_sum] at this
    exact_mod_cast this

/-- The complex weight with the given parts. -/
noncomputable def weight {m n : ℕ} (re im : Fin m → Fin n → ℝ) (i : Fin m) (j : Fin n) : ℂ := ⟨re i j, im i j⟩

/-- C48: the entries of the scattering matrix of an `m × n` coupler: from left port `i` to right port `j` and back the
weight is transmitted, and there is no coupling among the ports on one side. -/
theorem C48_entries (m n : ℕ) (re im : Fin m → Fin n → ℝ) (wl : ℝ) :
    (∀ (i : Fin m) (j : Fin n), scattering (.mmi m n re im) wl (Fin.natAdd m j) (Fin.castAdd n i) = weight re im i j) ∧
    (∀ (i : Fin m) (j : Fin n), scattering (.mmi m n re im) wl (Fin.castAdd n i) (Fin.natAdd m j) = weight re im i j) ∧
    (∀ i i' : Fin m, scattering (.mmi m n re im) wl (Fin.castAdd n i) (Fin.castAdd n i') = 0) ∧
    (∀ j j' : Fin n, scattering (.mmi m n re im) wl (Fin.natAdd m j) (Fin.natAdd m j') = 0) := by
  refine ⟨fun i j => ?_, fun i j => ?_, fun i j => ?_, fun i j => ?_⟩ <;>
    apply Complex.ext <;> simp [scattering, cx, Part.S, mmiS, weight]

example : scattering (.mmi 1 2 ![![0.6, 0]] ![![0, 0.8]]) 1.55e-6 (Fin.natAdd 1 (1 : Fin 2)) (Fin.castAdd 2 (0 : Fin 1)) =
    (⟨0, 0.8⟩ : ℂ) := ((C48_entries 1 2 ![![0.6, 0]] ![![0, 0.8]] 1.55e-6).1 0 1).trans (by simp [weight])

/-- C48: the coupler conserves the power of everything entering the left side if and only if the rows of the weights are
orthonormal. -/
theorem C48_left (m n : ℕ) (re im : Fin m → Fin n → ℝ) (wl : ℝ) :
    (∀ v : Fin (m + n) → ℂ, (∀ j : Fin n, v (Fin.natAdd m j) = 0) →
      power (scattering (.mmi m n re im) wl *ᵥ v) = power v) ↔
    ∀ i i', ∑ j, starRingEnd ℂ (weight re im i j) * weight re im i' j = if i = i' then 1 else 0 := by
  obtain ⟨h1, -, h3, -⟩ := C48_entries m n re im wl
  rw [← isometry_iff fun (j : Fin n) (i : Fin m) => weight re im i j]
  have out : ∀ v : Fin (m + n) → ℂ, (∀ j : Fin n, v (Fin.natAdd m j) = 0) →
      power (scattering (.mmi m n re im) wl *ᵥ v) =
        ∑ j, Complex.normSq (∑ i, weight re im i j * v (Fin.castAdd n i)) := by
    intro v hv
    unfold power
    rw [Fin.sum_univ_add]
    have e1 : ∀ i : Fin m, (scattering (.mmi m n re im) wl *ᵥ v) (Fin.castAdd n i) = 0 := by
      intro i
      unfold Matrix.mulVec dotProduct
      rw [Fin.sum_univ_add]
      simp [h3, hv]
    have e2 : ∀ j : Fin n, (scattering (.mmi m n re im) wl *ᵥ v) (Fin.natAdd m j) =
        ∑ i, weight re im i j * v (Fin.castAdd n i) := by
      intro j
      unfold Matrix.mulVec dotProduct
      rw [Fin.sum_univ_add]
      simp [h1, hv]
    rw [Finset.sum_congr rfl fun i _ => congrArg Complex.normSq (e1 i), Finset.sum_congr rfl fun i _ =>
      congrArg Complex.normSq (e2 i)]
    simp
  have pw : ∀ v : Fin (m + n) → ℂ, (∀ j : Fin n, v (Fin.natAdd m j) = 0) → power v =
      ∑ i, Complex.normSq (v (Fin.castAdd n i)) := by
    intro v hv
    unfold power
    rw [Fin.sum_univ_add]
    simp [hv]
  constructor
  · intro h u
    have hv : ∀ j : Fin n, Fin.append u (fun _ : Fin n => (0 : ℂ)) (Fin.natAdd m j) = 0 := fun j => by simp
    have := h (Fin.append u fun _ => 0) hv
    rw [out _ hv, pw _ hv] at this
    simpa using this
  · intro h v hv
    rw [out v hv, pw v hv]
    exact h _

/-- A splitter into two arms, with different phases. -/
example (v : Fin (1 + 2) → ℂ) (hv : ∀ j : Fin 2, v (Fin.natAdd 1 j) = 0) :
    power (scattering (.mmi 1 2 ![![0.6, 0]] ![![0, 0.8]]) 1.55e-6 *ᵥ v) = power v := by
  refine (C48_left 1 2 _ _ _).2 ?_ v hv
  intro i i'
  have : i = i' := Subsingleton.elim _ _
  subst this
  fin_cases i
  apply Complex.ext <;> simp [weight, Fin.sum_univ_two] <;> norm_num

/-- C48: and of everything entering the right side if and only if the columns are orthonormal. -/
theorem C48_right (m n : ℕ) (re im : Fin m → Fin n → ℝ) (wl : ℝ) :
    (∀ v : Fin (m + n) → ℂ, (∀ i : Fin m, v (Fin.castAdd n i) = 0) →
      power (scattering (.mmi m n re im) wl *ᵥ v) = power v) ↔
    ∀ j j', ∑ i, starRingEnd ℂ (weight re im i j) * weight re im i j' = if j = j' then 1 else 0 := by
  obtain ⟨-, h1, -, h3⟩ := C48_entries m n re im wl
  rw [← isometry_iff fun (i : Fin m) (j : Fin n) => weight re im i j]
  have out : ∀ v : Fin (m + n) → ℂ, (∀ i : Fin m, v (Fin.castAdd n i) = 0) →
      power (scattering (.mmi m n re im) wl *ᵥ v) =
        ∑ i, Complex.normSq (∑ j, weight re im i j * v (Fin.natAdd m j)) := by
    intro v hv
    unfold power
    rw [Fin.sum_univ_add]
    have e1 : ∀ j : Fin n, (scattering (.mmi m n re im) wl *ᵥ v) (Fin.natAdd m j) = 0 := by
      intro i
      unfold Matrix.mulVec dotProduct
      rw [Fin.sum_univ_add]
      simp [h3, hv]
    have e2 : ∀ i : Fin m, (scattering (.mmi m n re im) wl *ᵥ v) (Fin.castAdd n i) =
        ∑ j, weight re im i j * v (Fin.natAdd m j) := by
      intro j
      unfold Matrix.mulVec dotProduct
      rw [Fin.sum_univ_add]
      simp [h1, hv]
    rw [Finset.sum_congr rfl fun i _ => congrArg Complex.normSq (e1 i), Finset.sum_congr rfl fun i _ =>
      congrArg Complex.normSq (e2 i)]
    simp
  have pw : ∀ v : Fin (m + n) → ℂ, (∀ i : Fin m, v (Fin.castAdd n i) = 0) → power v =
      ∑ j, Complex.normSq (v (Fin.natAdd m j)) := by
    intro v hv
    unfold power
    rw [Fin.sum_univ_add]
    simp [hv]
  constructor
  · intro h u
    have hv : ∀ i : Fin m, Fin.append (fun _ : Fin m => (0 : ℂ)) u (Fin.castAdd n i) = 0 := fun j => by simp
    have := h (Fin.append (fun _ => 0) u) hv
    rw [out _ hv, pw _ hv] at this
    simpa using this
  · intro h v hv
    rw [out v hv, pw v hv]
    exact h _

/-- The splitter run backwards does not conserve the power: its two columns are not orthonormal. -/
example : ¬ ∀ v : Fin (1 + 2) → ℂ, (∀ i : Fin 1, v (Fin.castAdd 2 i) = 0) →
    power (scattering (.mmi 1 2 ![![0.6, 0]] ![![0, 0.8]]) 1.55e-6 *ᵥ v) = power v := by
  rw [C48_right]
  intro h
  have := congrArg Complex.re (h 0 0)
  simp [weight] at this
  norm_num at this

end PT
