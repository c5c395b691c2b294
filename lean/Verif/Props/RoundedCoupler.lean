import Verif.Spec.RoundedCoupler
import Verif.Props.RoundedBounded
import Verif.Props.RoundedMesh

/-! C152: Circuits of couplers, mirrors, Mzis and waveguides in floating-point arithmetic. -/

namespace PT
open Spec Matrix

variable {W : Type}

namespace Sens

theorem split_near {mt : Libt} (hmt : AccurateT mt) (x : ℚ) (h0 : 0 ≤ x) (h1 : x ≤ 1) :
    |((splitR fl32 mt x).1 : ℝ) - √(1 - x)| ≤ 1 / 2 ^ 22 ∧ |((splitR fl32 mt x).2 : ℝ) - √x| ≤ 1 / 2 ^ 22 := by
  have x0 : (0 : ℝ) ≤ x := by exact_mod_cast h0
  have x1 : (x : ℝ) ≤ 1 := by exact_mod_cast h1
  have hsx : √(x : ℝ) ≤ 1 := Real.sqrt_le_one.mpr x1
  constructor
  · have hq : (0 : ℚ) ≤ 1 - x := by linarith
    obtain ⟨-, hr⟩ := hmt.2.2 (fl32 (1 - x)) (fl32_nonneg hq)
    have hf := Rwv.fl32_real (1 - x)
    have e : ((1 - x : ℚ) : ℝ) = 1 - x := by push_cast; rfl
    rw [e] at hf
    have y0 : (0 : ℝ) ≤ 1 - x := by linarith
    rw [abs_of_nonneg y0] at hf
    show |((mt.sqrt (fl32 (1 - x)) : ℚ) : ℝ) - √(1 - x)| ≤ 1 / 2 ^ 22
    obtain ⟨a, ha⟩ : ∃ a : ℝ, a = ((fl32 (1 - x) : ℚ) : ℝ) := ⟨_, rfl⟩
    obtain ⟨b, hb⟩ : ∃ b : ℝ, b = 1 - (x : ℝ) := ⟨_, rfl⟩
    have a0 : 0 ≤ a := by rw [ha]; exact_mod_cast fl32_nonneg hq
    have b1 : b ≤ 1 := by rw [hb]; linarith
    rw [← hb] at y0
    rw [← ha, ← hb] at hf
    rw [← ha] at hr
    rw [← hb]
    have sb : √b ≤ 1 := Real.sqrt_le_one.mpr b1
    have sb0 := Real.sqrt_nonneg b
    have sa0 := Real.sqrt_nonneg a
    have hη : √((1 : ℝ) / 2 ^ 150) = 1 / 2 ^ 75 := by
      rw [show (1 : ℝ) / 2 ^ 150 = (1 / 2 ^ 75) ^ 2 by norm_num]
      exact Real.sqrt_sq (by positivity)
    obtain ⟨hl, hu⟩ := abs_le.mp hf
    have up : √a ≤ √b * (1 + 1 / 2 ^ 24) + 1 / 2 ^ 75 := by
      refine Real.sqrt_le_iff.mpr ⟨by positivity, ?_⟩
      have := Real.sq_sqrt y0
      nlinarith [mul_nonneg sb0 (by norm_num : (0 : ℝ) ≤ 1 / 2 ^ 75)]
    have lo : √b * (1 - 1 / 2 ^ 24) ≤ √a + 1 / 2 ^ 75 := by
      have h1 : √(b * (1 - 1 / 2 ^ 24)) ≤ √a + 1 / 2 ^ 75 := by
        refine Real.sqrt_le_iff.mpr ⟨by positivity, ?_⟩
        have := Real.sq_sqrt a0
        nlinarith [mul_nonneg sa0 (by norm_num : (0 : ℝ) ≤ 1 / 2 ^ 75)]
      have h2 : (1 - 1 / 2 ^ 24 : ℝ) ≤ √(1 - 1 / 2 ^ 24) := Real.le_sqrt_of_sq_le (by norm_num)
      rw [Real.sqrt_mul y0] at h1
      exact (mul_le_mul_of_nonneg_left h2 sb0).trans h1
    have h3 : |√a - √b| ≤ 1 / 2 ^ 24 + 1 / 2 ^ 75 := by
      rw [abs_le]
      constructor <;> nlinarith
    have h4 : √a / 2 ^ 23 ≤ (1 + 1 / 2 ^ 23) / 2 ^ 23 := by
      have : √a ≤ 1 + 1 / 2 ^ 23 := by nlinarith
      gcongr
    have h5 := abs_sub_le ((mt.sqrt (fl32 (1 - x)) : ℚ) : ℝ) (√a) (√b)
    have h6 : (1 + 1 / 2 ^ 23) / 2 ^ 23 + (1 / 2 ^ 24 + 1 / 2 ^ 75) ≤ (1 : ℝ) / 2 ^ 22 := by norm_num
    linarith
  · obtain ⟨-, hr⟩ := hmt.2.2 x h0
    refine hr.trans ?_
    have : √(x : ℝ) / 2 ^ 23 ≤ 1 / 2 ^ 23 := by gcongr
    exact this.trans (by norm_num)

theorem coupler_fields {t t' k k' δ : ℝ} (ht : |t' - t| ≤ δ) (hk : |k' - k| ≤ δ) :
    ‖(⟨t', 0⟩ : ℂ) - ⟨t, 0⟩‖ ≤ δ ∧ ‖(⟨0, k'⟩ : ℂ) - ⟨0, k⟩‖ ≤ δ := by
  constructor
  · have e : (⟨t', 0⟩ : ℂ) - ⟨t, 0⟩ = ((t' - t : ℝ) : ℂ) := by apply Complex.ext <;> simp
    rw [e, Complex.norm_real]; exact ht
  · have e : (⟨0, k'⟩ : ℂ) - ⟨0, k⟩ = ((k' - k : ℝ) : ℂ) * Complex.I := by apply Complex.ext <;> simp
    rw [e, norm_mul, Complex.norm_I, mul_one, Complex.norm_real]; exact hk

end Sens

/-- C152. The entries of the matrices that are computed for couplers and mirrors are those of the component up to `2^-22`. -/
theorem C152_split {mt : Libt} (hmt : AccurateT mt) (x : ℚ) (h0 : 0 ≤ x) (h1 : x ≤ 1) (wl : ℝ) :
    (∀ i j, ‖pairComplex (couplerR fl32 mt x i j) - scattering (.coupler x) wl i j‖ ≤ 1 / 2 ^ 22) ∧
      ∀ i j, ‖pairComplex (mirrorR fl32 mt x i j) - scattering (.mirror x) wl i j‖ ≤ 1 / 2 ^ 22 := by
  obtain ⟨ht, hk⟩ := Sens.split_near hmt x h0 h1
  have e1 : scattering (.coupler x) wl = cross4 ⟨√(1 - x), 0⟩ ⟨0, √x⟩ ⟨0, √x⟩ ⟨√(1 - x), 0⟩ := coupler_shape x
  have e2 : scattering (.mirror x) wl = cross2 ⟨√x, 0⟩ ⟨0, √(1 - x)⟩ ⟨√x, 0⟩ := mirror_shape x
  rw [e1, e2]
  obtain ⟨f1, f2⟩ := Sens.coupler_fields ht hk
  obtain ⟨g1, g2⟩ := Sens.coupler_fields hk ht
  have hz : ‖(pairComplex (0, 0) : ℂ) - 0‖ ≤ 1 / 2 ^ 22 := by
    have : pairComplex (0, 0) = 0 := by apply Complex.ext <;> simp [pairComplex]
    rw [this, sub_zero, norm_zero]; positivity
  obtain ⟨s, hs⟩ : ∃ s, s = splitR fl32 mt x := ⟨_, rfl⟩
  rw [← hs] at f1 f2 g1 g2
  have q1 : pairComplex (s.1, 0) = ⟨s.1, 0⟩ := by unfold pairComplex; simp
  have q2 : pairComplex (0, s.2) = ⟨0, s.2⟩ := by unfold pairComplex; simp
  have q3 : pairComplex (s.2, 0) = ⟨s.2, 0⟩ := by unfold pairComplex; simp
  have q4 : pairComplex (0, s.1) = ⟨0, s.1⟩ := by unfold pairComplex; simp
  rw [← q1] at f1
  rw [← q2] at f2
  rw [← q3] at g1
  rw [← q4] at g2
  constructor
  · unfold couplerR
    rw [← hs]
    intro i j
    fin_cases i <;> fin_cases j <;> first | exact hz | exact f1 | exact f2
  · unfold mirrorR
    rw [← hs]
    intro i j
    fin_cases i <;> fin_cases j <;> first | exact g1 | exact g2

namespace Sens

theorem part_near {m : Libm} {mt : Libt} (hm : Accurate m) (hmt : AccurateT mt) {T wl : ℝ} (p : Part) (S : Matrix (Fin p.n) (Fin p.n) ℂ)
    (h : IsComputedPart m mt T wl p S) (hT : 0 ≤ T) (i j : Fin p.n) : ‖S i j - scattering p wl i j‖ ≤ T / 2 ^ 47 + 1 / 2 ^ 17 := by
  have hle : (1 : ℝ) / 2 ^ 22 ≤ T / 2 ^ 47 + 1 / 2 ^ 17 := by
    have : 0 ≤ T / 2 ^ 47 := by positivity
    have : (1 : ℝ) / 2 ^ 22 ≤ 1 / 2 ^ 17 := by norm_num
    linarith
  cases p with
  | coupler k =>
    obtain ⟨k', rfl, h0, h1, rfl⟩ := h
    exact ((C152_split hmt k' h0 h1 wl).1 i j).trans hle
  | mirror R =>
    obtain ⟨R', rfl, h0, h1, rfl⟩ := h
    exact ((C152_split hmt R' h0 h1 wl).2 i j).trans hle
  | _ => exact computed_near hm _ S h hT i j

theorem part_contracts {m : Libm} {mt : Libt} {T wl : ℝ} (p : Part) (S : Matrix (Fin p.n) (Fin p.n) ℂ) (h : IsComputedPart m mt T wl p S)
    (wl' : ℝ) : Contracts (scattering p wl') := by
  cases p with
  | coupler k =>
    obtain ⟨k', rfl, h0, h1, rfl⟩ := h
    exact fun v => (C42_unitary (.coupler k') ⟨by exact_mod_cast h0, by exact_mod_cast h1⟩ wl' v).le
  | mirror R =>
    obtain ⟨R', rfl, h0, h1, rfl⟩ := h
    exact fun v => (C42_unitary (.mirror R') ⟨by exact_mod_cast h0, by exact_mod_cast h1⟩ wl' v).le
  | _ => exact computed_contracts (m := m) (T := T) (wl := wl) _ S h wl'

theorem part_small {m : Libm} {mt : Libt} {T wl : ℝ} (p : Part) (S : Matrix (Fin p.n) (Fin p.n) ℂ) (h : IsComputedPart m mt T wl p S) :
    p.n ≤ 4 := by
  cases p with
  | coupler k => exact le_refl 4
  | mirror R => exact (by decide : 2 ≤ 4)
  | _ => exact computed_small (m := m) (T := T) (wl := wl) _ S h

end Sens

/-- C152. Circuits in which light travels in one direction, such as interferometers and filters of couplers and waveguides: `rnd` gives for each
component the matrix that is computed in floating-point arithmetic. The circuit of these matrices gives the result of exact arithmetic, up to
single precision times the number of columns, in the frequency domain and in the time domain. -/
theorem C152_feedforward [Nonempty W] {m : Libm} {mt : Libt} (hm : Accurate m) (hmt : AccurateT mt) (T : ℝ) (hT : 0 ≤ T) (wl : W → ℝ)
    (rnd : (p : Part) → ℝ → Matrix (Fin p.n) (Fin p.n) ℂ) (hend : ∀ p, p = .source ∨ p = .detector → ∀ wl, rnd p wl = 0) (d : Dev)
    (hM : MadeOf (fun p => ∀ w, IsComputedPart m mt T (wl w) p (rnd p (wl w))) d) (ht : d.comp.terminated = true) (front : ℕ → Bool)
    (rank : ℕ → ℕ) (hff : FeedForward d front rank) (D : ℕ) (hD : ∀ i < d.comp.n, rank i ≤ D) (v : ℝ)
    (hd : portsWith (d.plant v wl).det ≠ []) (dt : ℝ) (hdt : 0 < dt) (δ : ℝ) (hδ : δ = 4 * (T / 2 ^ 47 + 1 / 2 ^ 17)) (hs : (D + 1) * δ < 1) :
    ∃ (L : List Part) (at_ : Fin d.comp.n → ℕ × ℕ),
      BlockWise scattering wl L at_ (fun w => cx ((d.plant v wl).rS w) ((d.plant v wl).iS w)) ∧
      (∃ S', BlockWise rnd wl L at_ S') ∧
      ∀ S', BlockWise rnd wl L at_ S' →
        ResultsWithin ((D + 2) * δ / (1 - (D + 1) * δ)) (d.plant v wl) (withS (d.plant v wl) S') ∧
        RunsWithin ((D + 2) * δ / (1 - (D + 1) * δ)) dt (d.plant v wl) (withS (d.plant v wl) S') := by
  obtain ⟨w₀⟩ := ‹Nonempty W›
  have h0 : 0 ≤ T / 2 ^ 47 + 1 / 2 ^ 17 := by positivity
  obtain ⟨L, at_, -, h1, h2, h3⟩ := C149_components _ d hM v wl (T / 2 ^ 47 + 1 / 2 ^ 17) 4 h0
    (fun p hp => Sens.part_small p _ (hp w₀)) rnd hend fun p hp w i j => Sens.part_near hm hmt p _ (hp w) hT i j
  refine ⟨L, at_, h1, h2, fun S' hS' => ?_⟩
  obtain ⟨h4, h5, h6⟩ := h3 S' hS'
  have hM' : MadeOf (fun p => ∀ wl, Contracts (scattering p wl)) d := hM.mono fun p hp => Sens.part_contracts p _ (hp w₀)
  have key := C149_feedforward d hM' ht front rank hff D hD v wl hd
    (T / 2 ^ 47 + 1 / 2 ^ 17) 4 h0 (by rw [hδ] at hs; exact_mod_cast hs) S' h4 h6
  have key' := C150_feedforward d hM' ht front rank hff D hD v wl hd dt hdt
    (T / 2 ^ 47 + 1 / 2 ^ 17) 4 h0 (by rw [hδ] at hs; exact_mod_cast hs) S' h4 h5 h6
  rw [hδ]
  exact ⟨by exact_mod_cast key, by exact_mod_cast key'⟩

namespace Sens

/-- The matrices computed for the components of the examples: waveguides of 10 µm with some loss, couplers and mirrors that couple a third. -/
noncomputable def exParts (m : Libm) (mt : Libt) : (p : Part) → ℝ → Matrix (Fin p.n) (Fin p.n) ℂ
  | .coupler _, _ => Matrix.of fun i j => pairComplex (couplerR fl32 mt (1 / 3) i j)
  | .mirror _, _ => Matrix.of fun i j => pairComplex (mirrorR fl32 mt (1 / 3) i j)
  | p, wl => exMesh m p wl

theorem exCoupler_ok (m : Libm) (mt : Libt) : FourPort (.coupler (1 / 3)) ∧
    IsComputedPart m mt 1000 1.5e-6 (.coupler (1 / 3)) (exParts m mt (.coupler (1 / 3)) 1.5e-6) := by
  refine ⟨⟨rfl, fun wl i j h => ?_⟩, 1 / 3, by norm_num, by norm_num, by norm_num, rfl⟩
  have e := congrFun (congrFun (coupler_shape (1 / 3)) i) j
  exact cross4_sides _ _ _ _ i j (ne_of_eq_of_ne e.symm h)

end Sens

/-- Not vacuous: a network of 64 modes and 64 columns of couplers and waveguides. What the detectors see is wrong by at most `1 / 400`. -/
example : ∃ (m : Libm) (mt : Libt) (d d' : Dev), Accurate m ∧ AccurateT mt ∧
    clements 64 64 (fun _ _ => .coupler (1 / 3)) (fun _ _ => Sens.exWg) = .ok d ∧ termDev [] clementsCls d (meshTerms 64) = .ok d' ∧
    ∃ S' q, q ≤ (1 / 400 : ℝ) ∧
      ResultsWithin q (d'.plant 1 fun _ : Unit => 1.5e-6) (withS (d'.plant 1 fun _ : Unit => 1.5e-6) S') ∧
      RunsWithin q 1e-14 (d'.plant 1 fun _ : Unit => 1.5e-6) (withS (d'.plant 1 fun _ : Unit => 1.5e-6) S') := by
  obtain ⟨m, hm⟩ := exists_accurate
  obtain ⟨mt, hmt⟩ := exists_accurateT
  obtain ⟨d, h1, hd, ho⟩ := clements_deep (N := 64) (capacity := 64) (mz := fun _ _ => .coupler (1 / 3)) (wg := fun _ _ => Sens.exWg)
    (P := fun p => IsComputedPart m mt 1000 1.5e-6 p (Sens.exParts m mt p 1.5e-6) ∧ p ≠ .source ∧ p ≠ .detector) (by omega) (by omega)
    (fun _ _ => ⟨⟨(Sens.exCoupler_ok m mt).2, Sens.four_end (Sens.exCoupler_ok m mt).1⟩, (Sens.exCoupler_ok m mt).1⟩)
    (fun _ _ => ⟨⟨(Sens.exWg_ok m).2 (), Sens.two_end (Sens.exWg_ok m).1⟩, (Sens.exWg_ok m).1⟩)
  obtain ⟨d', h2, hM, ht, ⟨front, rank, hff, hrank⟩, hdet⟩ := term_deep (fun p hp => hp.2) (by omega) hd ho clementsCls []
    (attr_of (by decide)).1 (by decide) (by decide)
  have hdl : (portsWith (d'.plant 1 fun _ : Unit => 1.5e-6).det).length = 64 := by
    rw [← hdet]; exact count_marks _ _ (built_marks hM.ok.1).2.1
  obtain ⟨L, at_, -, ⟨S', hS'⟩, h⟩ := C152_feedforward hm hmt 1000 (by norm_num) (fun _ : Unit => 1.5e-6) (Sens.exParts m mt)
    (by rintro p (rfl | rfl) wl <;> rfl) d' (hM.mono fun p hp _ => by
      rcases hp with rfl | rfl | hp
      · exact (rfl : (0 : Matrix _ _ ℂ) = 0)
      · exact (rfl : (0 : Matrix _ _ ℂ) = 0)
      · exact hp.1) ht front rank hff _ hrank 1 (fun h => by rw [h] at hdl; simp at hdl) 1e-14 (by norm_num) _ rfl (by norm_num)
  exact ⟨m, mt, d, d', hm, hmt, h1, h2, S', _, by norm_num, h S' hS'⟩

end PT
