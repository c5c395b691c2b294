import Verif.Spec.SensitiveMesh
import Verif.Props.Sensitive
import Verif.Props.RoundedMzi
import Verif.Props.Dispersion

/-! C149: Meshes of Mzis and waveguides computed in floating-point arithmetic. -/

namespace PT
open Spec Matrix

variable {W B : Type}

namespace Sens

theorem mzi_between (phi theta neff ng wl0 l loss wl : ℝ) (i j : Fin 4) :
    scattering (.mzi phi theta neff ng wl0 l loss) wl i j = mziBetween (armPhase l neff wl0 ng wl) phi theta i j := by
  rw [mzi_entry]
  have e : 2 * Real.pi * neffAt neff wl0 ng wl * l / wl = armPhase l neff wl0 ng wl := by
    unfold armPhase neffAt
    ring
  rw [e]
  unfold mziBetween
  rw [Complex.ofReal_add, add_mul, Complex.exp_add]
  fin_cases i <;> fin_cases j <;> simp [cross4, mul_assoc]

theorem wg_amp (length loss neff wl0 ng phase wl : ℝ) (i j : Fin 2) :
    scattering (.waveguide length loss neff wl0 ng phase) wl i j = if i = j then 0 else Wg.amp ⟨length, loss, neff, wl0, ng, phase⟩ wl := by
  rw [waveguide_entry]
  have e : (lossFactor loss length : ℂ) * Complex.exp ((2 * Real.pi * neffAt neff wl0 ng wl * length / wl + phase : ℝ) * Complex.I) =
      Wg.amp ⟨length, loss, neff, wl0, ng, phase⟩ wl := by
    unfold Wg.amp lossFactor neffAt
    rw [neg_mul]
    congr 5
    ring
  rw [e]
  fin_cases i <;> fin_cases j <;> simp [cross2]

theorem computed_near {m : Libm} (hm : Accurate m) {T wl : ℝ} (p : Part) (S : Matrix (Fin p.n) (Fin p.n) ℂ) (h : IsComputed m T wl p S)
    (hT : 0 ≤ T) (i j : Fin p.n) : ‖S i j - scattering p wl i j‖ ≤ T / 2 ^ 47 + 1 / 2 ^ 17 := by
  have hpos : 0 ≤ T / 2 ^ 47 + 1 / 2 ^ 17 := by positivity
  cases p with
  | source =>
    obtain rfl : S = 0 := h
    have e : scattering .source wl i j = 0 := rfl
    rw [e, Matrix.zero_apply, sub_zero, norm_zero]; exact hpos
  | detector =>
    obtain rfl : S = 0 := h
    have e : scattering .detector wl i j = 0 := rfl
    rw [e, Matrix.zero_apply, sub_zero, norm_zero]; exact hpos
  | mzi phi theta neff ng wl0 length loss =>
    obtain ⟨phi', theta', neff', ng', wl0', length', loss', wl', ⟨rfl, rfl, rfl, rfl, rfl, rfl, rfl, rfl⟩, hu, hp, ht, hturn, rfl⟩ := h
    have h1 := C147_mzi hm phi' theta' length' loss' neff' wl0' ng' wl' hu hp ht i j
    rw [mzi_between]
    refine h1.trans ?_
    have : (1 : ℝ) / 2 ^ 19 ≤ 1 / 2 ^ 17 := by norm_num
    have h47 : turn (waveguideOf length' loss' neff' wl0' ng' 0) wl' / 2 ^ 47 ≤ T / 2 ^ 47 := by gcongr
    linarith
  | waveguide length loss neff wl0 ng phase =>
    obtain ⟨length', loss', neff', wl0', ng', phase', wl', ⟨rfl, rfl, rfl, rfl, rfl, rfl, rfl⟩, hu, hl, hp, hturn, rfl⟩ := h
    rw [wg_amp, Matrix.of_apply]
    by_cases hij : i = j
    · rw [if_pos hij, if_pos hij, sub_zero, norm_zero]; exact hpos
    · rw [if_neg hij, if_neg hij]
      have h1 := C144_waveguide hm length' loss' neff' wl0' ng' phase' wl' hu
      have h2 : (waveguideOf length' loss' neff' wl0' ng' phase').left ≤ 1 := by
        unfold Wg.left
        refine Real.rpow_le_one_of_one_le_of_nonpos (by norm_num) ?_
        have : (0 : ℝ) ≤ loss' * length' := mul_nonneg (by exact_mod_cast hl) (by exact_mod_cast hu.length_ok.1)
        show -((loss' : ℝ) * length') / 20 ≤ 0
        linarith
      have h3 : 0 ≤ (waveguideOf length' loss' neff' wl0' ng' phase').left := by unfold Wg.left; positivity
      have h4 : |(phase' : ℝ)| ≤ 500 := by exact_mod_cast hp
      have h5 : 0 ≤ turn (waveguideOf length' loss' neff' wl0' ng' phase') wl' := by
        have h1 : (0 : ℝ) ≤ length' := by exact_mod_cast hu.length_ok.1
        have h2 : (0 : ℝ) ≤ wl' := by exact_mod_cast (le_trans (by norm_num) hu.wl_ok.1 : (0 : ℚ) ≤ wl')
        unfold turn waveguideOf
        positivity
      refine h1.trans ?_
      obtain ⟨t, ht⟩ : ∃ t, t = turn (waveguideOf length' loss' neff' wl0' ng' phase') wl' := ⟨_, rfl⟩
      rw [← ht] at h5 hturn ⊢
      have h6 : t / 2 ^ 47 + |(phase' : ℝ)| / 2 ^ 52 + 1 / 2 ^ 18 ≤ T / 2 ^ 47 + 500 / 2 ^ 52 + 1 / 2 ^ 18 := by gcongr
      have h7 : 0 ≤ t / 2 ^ 47 + |(phase' : ℝ)| / 2 ^ 52 + 1 / 2 ^ 18 := by positivity
      have h8 := mul_le_mul_of_nonneg_right h2 h7
      have h9 : (500 : ℝ) / 2 ^ 52 + 1 / 2 ^ 18 + 1 / 2 ^ 147 ≤ 1 / 2 ^ 17 := by norm_num
      linarith
  | _ => exact h.elim

theorem computed_contracts {m : Libm} {T wl : ℝ} (p : Part) (S : Matrix (Fin p.n) (Fin p.n) ℂ) (h : IsComputed m T wl p S) (wl' : ℝ) :
    Contracts (scattering p wl') := by
  cases p with
  | source => exact C65_contracts_partial .source trivial (by simp) wl'
  | detector => exact C65_contracts_partial .detector trivial (by simp) wl'
  | mzi phi theta neff ng wl0 length loss => exact fun v => (C42_unitary (.mzi phi theta neff ng wl0 length loss) trivial wl' v).le
  | waveguide length loss neff wl0 ng phase =>
    obtain ⟨length', loss', neff', wl0', ng', phase', wl', ⟨rfl, rfl, rfl, rfl, rfl, rfl, rfl⟩, hu, hl, -⟩ := h
    exact C65_contracts_partial (.waveguide _ _ _ _ _ _) ⟨by exact_mod_cast hu.length_ok.1, by exact_mod_cast hl⟩ (by simp) _
  | _ => exact h.elim

theorem computed_small {m : Libm} {T wl : ℝ} (p : Part) (S : Matrix (Fin p.n) (Fin p.n) ℂ) (h : IsComputed m T wl p S) : p.n ≤ 4 := by
  cases p with
  | source => decide
  | detector => decide
  | mzi phi theta neff ng wl0 length loss => exact le_refl 4
  | waveguide length loss neff wl0 ng phase => exact (by decide : 2 ≤ 4)
  | _ => exact h.elim

end Sens

/-- C149. Meshes of any size: `rnd` gives for each component the matrix that is computed in floating-point arithmetic. Put together from
these matrices, the circuit gives the result of exact arithmetic, up to single precision times the number of columns. -/
theorem C149_mesh [Nonempty W] {m : Libm} (hm : Accurate m) (T : ℝ) (hT : 0 ≤ T) (wl : W → ℝ)
    (rnd : (p : Part) → ℝ → Matrix (Fin p.n) (Fin p.n) ℂ) (hend : ∀ p, p = .source ∨ p = .detector → ∀ wl, rnd p wl = 0) (d : Dev)
    (hM : MadeOf (fun p => ∀ w, IsComputed m T (wl w) p (rnd p (wl w))) d) (ht : d.comp.terminated = true) (front : ℕ → Bool) (rank : ℕ → ℕ)
    (hff : FeedForward d front rank) (D : ℕ) (hD : ∀ i < d.comp.n, rank i ≤ D) (v : ℝ) (hd : portsWith (d.plant v wl).det ≠ []) (δ : ℝ)
    (hδ : δ = 4 * (T / 2 ^ 47 + 1 / 2 ^ 17)) (hs : (D + 1) * δ < 1) :
    ∃ (L : List Part) (at_ : Fin d.comp.n → ℕ × ℕ),
      BlockWise scattering wl L at_ (fun w => cx ((d.plant v wl).rS w) ((d.plant v wl).iS w)) ∧
      (∃ S', BlockWise rnd wl L at_ S') ∧
      ∀ S', BlockWise rnd wl L at_ S' →
        ResultsWithin ((D + 2) * δ / (1 - (D + 1) * δ)) (d.plant v wl) (withS (d.plant v wl) S') := by
  obtain ⟨w₀⟩ := ‹Nonempty W›
  have h0 : 0 ≤ T / 2 ^ 47 + 1 / 2 ^ 17 := by positivity
  obtain ⟨L, at_, -, h1, h2, h3⟩ := C149_components _ d hM v wl (T / 2 ^ 47 + 1 / 2 ^ 17) 4 h0
    (fun p hp => Sens.computed_small p _ (hp w₀)) rnd hend fun p hp w i j => Sens.computed_near hm p _ (hp w) hT i j
  refine ⟨L, at_, h1, h2, fun S' hS' => ?_⟩
  obtain ⟨h4, -, h5⟩ := h3 S' hS'
  have hM' : MadeOf (fun p => ∀ wl, Contracts (scattering p wl)) d := by
    clear hff hD hd ht h1 h2 h3 h4 h5 hS' S' at_ L
    induction hM with
    | part p hp h => exact .part p (Sens.computed_contracts p _ (hp w₀)) h
    | named d x _ ih => exact .named d x ih
    | net name modules cs d _ hg hu hc h ih => exact .net name modules cs d ih hg hu hc h
  have key := C149_feedforward d hM' ht front rank hff D hD v wl hd (T / 2 ^ 47 + 1 / 2 ^ 17) 4 h0
    (by rw [hδ] at hs; exact_mod_cast hs) S' h4 h5
  rw [hδ]
  exact_mod_cast key

/-- The matrices computed for the example: a waveguide between a source and a detector. -/
noncomputable def Sens.exRnd (m : Libm) : (p : Part) → ℝ → Matrix (Fin p.n) (Fin p.n) ℂ
  | .waveguide .., _ => Matrix.of fun i j => if i = j then 0 else
      pairComplex (waveguideR fl fl32 m (1 / 10 ^ 5) 100 (234 / 100) (155 / 10 ^ 8) (34 / 10) (phaseStoredR fl 1) (15 / 10 ^ 7))
  | _, _ => 0

/-- The line of C66, 10 µm long, away from its reference wavelength, in floating-point arithmetic. -/
theorem Sens.exComputed : ∃ (m : Libm) (d : Dev), Accurate m ∧
    MadeOf (fun p => ∀ _ : Unit, IsComputed m 1000 1.5e-6 p (Sens.exRnd m p 1.5e-6)) d ∧ d.comp.n = 4 ∧
    portsWith (d.plant 1 fun _ : Unit => 1.5e-6).det ≠ [] ∧ d.comp.terminated = true ∧
    FeedForward d (fun i => i % 2 == 1) (fun i => (i + 1) / 2) := by
  obtain ⟨m, hm⟩ := exists_accurate
  obtain ⟨d, d', hd, -, -, hn, hs, hdt, ht, hff⟩ := exLine_devs
  have hM := exLine_made (fun p => ∀ _ : Unit, IsComputed m 1000 1.5e-6 p (Sens.exRnd m p 1.5e-6)) .source .detector
    ⟨fun _ => rfl, rfl⟩ ⟨fun _ => rfl, rfl⟩ (fun _ => by
      refine ⟨1 / 10 ^ 5, 100, 234 / 100, 155 / 10 ^ 8, 34 / 10, 1, 15 / 10 ^ 7, ⟨by norm_num, by norm_num, by norm_num, by norm_num, by norm_num,
        by norm_num, by norm_num⟩, by constructor <;> norm_num [abs_of_pos], by norm_num, by norm_num, ?_, rfl⟩
      have hpi := Real.pi_lt_four
      have hpi0 := Real.pi_pos
      have e : turn (waveguideOf (1 / 10 ^ 5) 100 (234 / 100) (155 / 10 ^ 8) (34 / 10) 1) ((15 / 10 ^ 7 : ℚ) : ℝ) ≤
          2 * Real.pi * (3 * (20 / 3)) := by
        unfold turn waveguideOf
        norm_num [abs_of_pos, abs_of_neg]
        nlinarith
      linarith) d hd
  exact ⟨m, d, hm, hM, hn, exLine_det hn hdt 1 _, ht, hff⟩

/-- Not vacuous: the line of C66, 10 µm long, away from its reference wavelength. The result is wrong by at most `1 / 8000`. -/
example : ∃ (m : Libm) (d : Dev) (L : List Part) (at_ : Fin d.comp.n → ℕ × ℕ) (S' : Unit → Matrix (Fin d.comp.n) (Fin d.comp.n) ℂ), Accurate m ∧
    d.comp.n = 4 ∧ BlockWise (Sens.exRnd m) (fun _ => 1.5e-6) L at_ S' ∧
    ∃ q : ℝ, q ≤ 1 / 8000 ∧ ResultsWithin q (d.plant 1 fun _ => 1.5e-6) (withS (d.plant 1 fun _ => 1.5e-6) S') := by
  obtain ⟨m, d, hm, hM, hn, hdt, ht, hff⟩ := Sens.exComputed
  obtain ⟨L, at_, -, ⟨S', hS'⟩, h⟩ := C149_mesh hm 1000 (by norm_num) (fun _ : Unit => 1.5e-6) (Sens.exRnd m)
    (by rintro p (rfl | rfl) wl <;> rfl) d hM ht _ _ hff 2 (fun i hi => by rw [hn] at hi; show (i + 1) / 2 ≤ 2; omega) 1
    hdt _ rfl (by norm_num)
  exact ⟨m, d, L, at_, S', hm, hn, hS', _, by norm_num, h S' hS'⟩

end PT
