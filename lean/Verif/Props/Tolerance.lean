import Verif.Proof.Tolerance
import Verif.Props.Spectrum
import Verif.Props.Train

/-! C155: Circuits whose components are not quite what they should be. -/

namespace PT
open Spec Matrix

variable {W : Type} {cs : List Conn}

namespace Tol

theorem cross2_near {δ : ℝ} {p t q p' t' q' : ℂ} (h1 : ‖p' - p‖ ≤ δ) (h2 : ‖t' - t‖ ≤ δ) (h3 : ‖q' - q‖ ≤ δ) (i j : Fin 2) :
    ‖cross2 p' t' q' i j - cross2 p t q i j‖ ≤ δ := by
  fin_cases i <;> fin_cases j <;> first | exact h1 | exact h2 | exact h3

theorem cross4_near {δ : ℝ} (h0 : 0 ≤ δ) {a b c d a' b' c' d' : ℂ} (h1 : ‖a' - a‖ ≤ δ) (h2 : ‖b' - b‖ ≤ δ) (h3 : ‖c' - c‖ ≤ δ) (h4 : ‖d' - d‖ ≤ δ)
    (i j : Fin 4) : ‖cross4 a' b' c' d' i j - cross4 a b c d i j‖ ≤ δ := by
  have hz : ‖(0 : ℂ) - 0‖ ≤ δ := by simpa using h0
  fin_cases i <;> fin_cases j <;> first | exact hz | exact h1 | exact h2 | exact h3 | exact h4

theorem mul_near {a b a' b' : ℂ} (h1 : ‖a‖ ≤ 1) (h2 : ‖b'‖ ≤ 1) : ‖a' * b' - a * b‖ ≤ ‖a' - a‖ + ‖b' - b‖ := by
  have e : a' * b' - a * b = (a' - a) * b' + a * (b' - b) := by ring
  rw [e]
  refine (norm_add_le _ _).trans (add_le_add ?_ ?_)
  · rw [norm_mul]
    exact mul_le_of_le_one_right (norm_nonneg _) h2
  · rw [norm_mul]
    exact mul_le_of_le_one_left (norm_nonneg _) h1

theorem turn_one (x : ℝ) : ‖Complex.exp ((x : ℝ) * Complex.I)‖ ≤ 1 := (Complex.norm_exp_ofReal_mul_I x).le

theorem cos_near (a b : ℝ) : ‖((Real.cos b : ℝ) : ℂ) - (Real.cos a : ℝ)‖ ≤ |b - a| := by
  have h := (Complex.abs_re_le_norm _).trans (Sens.turn_diff a b)
  rw [Complex.sub_re, Complex.exp_ofReal_mul_I_re, Complex.exp_ofReal_mul_I_re] at h
  rw [← Complex.ofReal_sub, Complex.norm_real]
  exact h

theorem sin_near (a b : ℝ) : ‖((Real.sin b : ℝ) : ℂ) - (Real.sin a : ℝ)‖ ≤ |b - a| := by
  have h := (Complex.abs_im_le_norm _).trans (Sens.turn_diff a b)
  rw [Complex.sub_im, Complex.exp_ofReal_mul_I_im, Complex.exp_ofReal_mul_I_im] at h
  rw [← Complex.ofReal_sub, Complex.norm_real]
  exact h

theorem sqrt_near {a b : ℝ} (ha : 0 ≤ a) (hb : 0 ≤ b) : |√b - √a| ≤ √|b - a| := by
  have key : ∀ {a b : ℝ}, 0 ≤ a → √b ≤ √a + √|b - a| := by
    intro a b ha
    rw [Real.sqrt_le_left (by positivity)]
    have h1 := Real.sq_sqrt ha
    have h2 := Real.sq_sqrt (abs_nonneg (b - a))
    have h3 := le_abs_self (b - a)
    have h4 := mul_nonneg (Real.sqrt_nonneg a) (Real.sqrt_nonneg |b - a|)
    nlinarith
  have h1 := key (b := b) ha
  have h2 := key (b := a) hb
  rw [abs_sub_comm] at h2
  rw [abs_le]
  constructor <;> linarith

theorem decay_near {s t : ℝ} (hs : 0 ≤ s) (ht : 0 ≤ t) : |Real.exp (-t) - Real.exp (-s)| ≤ |t - s| := by
  have key : ∀ {s t : ℝ}, 0 ≤ s → s ≤ t → |Real.exp (-t) - Real.exp (-s)| ≤ |t - s| := by
    intro s t hs hst
    have h1 : Real.exp (-t) ≤ Real.exp (-s) := Real.exp_le_exp.2 (by linarith)
    have h2 : Real.exp (-s) ≤ 1 := Real.exp_le_one_iff.2 (by linarith)
    have h3 := Real.add_one_le_exp (-(t - s))
    have h4 : Real.exp (-t) = Real.exp (-s) * Real.exp (-(t - s)) := by rw [← Real.exp_add]; congr 1; ring
    rw [abs_of_nonpos (by linarith), abs_of_nonneg (by linarith), h4]
    have h5 := Real.exp_pos (-s)
    nlinarith
  rcases le_total s t with h | h
  · exact key hs h
  · rw [abs_sub_comm, abs_sub_comm t]
    exact key ht h

theorem loss_near {l l' length : ℝ} (h : 0 ≤ length) (hl : 0 ≤ l) (hl' : 0 ≤ l') :
    ‖(lossFactor l' length : ℂ) - lossFactor l length‖ ≤ Real.log 10 / 20 * length * |l' - l| ∧ ‖(lossFactor l' length : ℂ)‖ ≤ 1 ∧
      ‖(lossFactor l length : ℂ)‖ ≤ 1 := by
  have hlog : 0 < Real.log 10 := Real.log_pos (by norm_num)
  have e : ∀ l, lossFactor l length = Real.exp (-(Real.log 10 / 20 * length * l)) := by
    intro l
    unfold lossFactor
    rw [Real.rpow_def_of_pos (by norm_num)]
    congr 1
    ring
  have h1 : ∀ l, 0 ≤ l → ‖(lossFactor l length : ℂ)‖ ≤ 1 := by
    intro l hl
    rw [Complex.norm_real, e, Real.norm_eq_abs, abs_of_pos (Real.exp_pos _)]
    exact Real.exp_le_one_iff.2 (neg_nonpos.2 (by positivity))
  refine ⟨?_, h1 l' hl', h1 l hl⟩
  rw [← Complex.ofReal_sub, Complex.norm_real, e, e]
  refine (decay_near (by positivity) (by positivity)).trans (le_of_eq ?_)
  rw [← mul_sub, abs_mul, abs_of_nonneg (by positivity)]

theorem index_diff (l neff neff' wl0 ng wl : ℝ) (h0 : wl0 ≠ 0) (h : wl ≠ 0) :
    |2 * Real.pi * neffAt neff' wl0 ng wl * l / wl - 2 * Real.pi * neffAt neff wl0 ng wl * l / wl| = 2 * Real.pi * |l * (neff' - neff) / wl0| := by
  have e : 2 * Real.pi * neffAt neff' wl0 ng wl * l / wl - 2 * Real.pi * neffAt neff wl0 ng wl * l / wl =
      2 * Real.pi * (l * (neff' - neff) / wl0) := by
    unfold neffAt
    field_simp
    ring
  rw [e, abs_mul, abs_of_pos (by positivity : 0 < 2 * Real.pi)]

theorem smul_cross4 (z a b c d : ℂ) : z • cross4 a b c d = cross4 (z * a) (z * b) (z * c) (z * d) := by
  ext i j
  fin_cases i <;> fin_cases j <;> simp [cross4]

end Tol

/-- C155. How much the matrices of components change with their parameters. -/
theorem C155_components (wl : W → ℝ) (hwl : ∀ w, wl w ≠ 0) :
    (∀ length loss loss' neff neff' wl0 ng phase phase' : ℝ, 0 ≤ length → 0 ≤ loss → 0 ≤ loss' → wl0 ≠ 0 →
      Resembles (|phase' - phase| + 2 * Real.pi * |length * (neff' - neff) / wl0| + Real.log 10 / 20 * length * |loss' - loss|) wl
        (.waveguide length loss neff wl0 ng phase) (.waveguide length loss' neff' wl0 ng phase')) ∧
    (∀ phi phi' theta theta' neff neff' ng wl0 length loss : ℝ, wl0 ≠ 0 →
      Resembles (|phi' - phi| + |theta' - theta| + 2 * Real.pi * |length * (neff' - neff) / wl0|) wl
        (.mzi phi theta neff ng wl0 length loss) (.mzi phi' theta' neff' ng wl0 length loss)) ∧
    (∀ k k' : ℝ, 0 ≤ k ∧ k ≤ 1 → 0 ≤ k' ∧ k' ≤ 1 → Resembles √|k' - k| wl (.coupler k) (.coupler k')) ∧
    (∀ k k' : ℝ, 0 ≤ k ∧ k ≤ 1 → 0 ≤ k' ∧ k' ≤ 1 → Resembles √|k' - k| wl (.mirror k) (.mirror k')) ∧
    ∀ p : Part, Resembles 0 wl p p := by
  have hsq : ∀ k k' : ℝ, 0 ≤ k ∧ k ≤ 1 → 0 ≤ k' ∧ k' ≤ 1 →
      ‖(⟨√(1 - k'), 0⟩ : ℂ) - ⟨√(1 - k), 0⟩‖ ≤ √|k' - k| ∧ ‖(⟨0, √k'⟩ : ℂ) - ⟨0, √k⟩‖ ≤ √|k' - k| ∧
        ‖(⟨0, √(1 - k')⟩ : ℂ) - ⟨0, √(1 - k)⟩‖ ≤ √|k' - k| ∧ ‖(⟨√k', 0⟩ : ℂ) - ⟨√k, 0⟩‖ ≤ √|k' - k| := by
    intro k k' hk hk'
    have hre : ∀ a b : ℝ, ‖(⟨a, 0⟩ : ℂ) - ⟨b, 0⟩‖ = |a - b| := by
      intro a b
      have e : (⟨a, 0⟩ : ℂ) - ⟨b, 0⟩ = ((a - b : ℝ) : ℂ) := by apply Complex.ext <;> simp
      rw [e, Complex.norm_real, Real.norm_eq_abs]
    have him : ∀ a b : ℝ, ‖(⟨0, a⟩ : ℂ) - ⟨0, b⟩‖ = |a - b| := by
      intro a b
      have e : (⟨0, a⟩ : ℂ) - ⟨0, b⟩ = ((a - b : ℝ) : ℂ) * Complex.I := by apply Complex.ext <;> simp
      rw [e, norm_mul, Complex.norm_I, mul_one, Complex.norm_real, Real.norm_eq_abs]
    have h1 := Tol.sqrt_near hk.1 hk'.1
    have h2 := Tol.sqrt_near (sub_nonneg.2 hk.2) (sub_nonneg.2 hk'.2)
    rw [show 1 - k' - (1 - k) = -(k' - k) by ring, abs_neg] at h2
    rw [hre, him, him, hre]
    exact ⟨h2, h1, h2, h1⟩
  refine ⟨?_, ?_, ?_, ?_, ?_⟩
  · intro length loss loss' neff neff' wl0 ng phase phase' hl h1 h2 h0
    refine ⟨rfl, rfl, fun _ => rfl, fun w i j hi hj hi' hj' => ?_⟩
    have e := congrFun (congrFun (waveguide_entry length loss neff wl0 ng phase (wl w)) ⟨i, hi⟩) ⟨j, hj⟩
    have e' := congrFun (congrFun (waveguide_entry length loss' neff' wl0 ng phase' (wl w)) ⟨i, hi'⟩) ⟨j, hj'⟩
    have hn := Tol.index_diff length neff neff' wl0 ng (wl w) h0 (hwl w)
    obtain ⟨x, hx⟩ : ∃ x, x = 2 * Real.pi * neffAt neff wl0 ng (wl w) * length / wl w := ⟨_, rfl⟩
    obtain ⟨y, hy⟩ : ∃ y, y = 2 * Real.pi * neffAt neff' wl0 ng (wl w) * length / wl w := ⟨_, rfl⟩
    rw [← hx] at e hn
    rw [← hy] at e' hn
    obtain ⟨l1, l2, l3⟩ := Tol.loss_near hl h1 h2
    have hlog : 0 < Real.log 10 := Real.log_pos (by norm_num)
    have hz : ‖(0 : ℂ) - 0‖ ≤ |phase' - phase| + 2 * Real.pi * |length * (neff' - neff) / wl0| + Real.log 10 / 20 * length * |loss' - loss| := by
      rw [sub_zero, norm_zero]
      positivity
    refine le_of_eq_of_le (congrArg₂ (fun a b => ‖a - b‖) e' e) (Tol.cross2_near hz ?_ hz _ _)
    have h5 := Tol.mul_near (a' := (lossFactor loss' length : ℂ)) (b := Complex.exp ((x + phase : ℝ) * Complex.I)) l3 (Tol.turn_one (y + phase'))
    have h6 := Sens.turn_diff (x + phase) (y + phase')
    have h7 : |y + phase' - (x + phase)| ≤ |y - x| + |phase' - phase| := by
      rw [show y + phase' - (x + phase) = (y - x) + (phase' - phase) by ring]
      exact abs_add_le _ _
    linarith
  · intro phi phi' theta theta' neff neff' ng wl0 length loss h0
    refine ⟨rfl, rfl, fun _ => rfl, fun w i j hi hj hi' hj' => ?_⟩
    have e := congrFun (congrFun (mzi_entry phi theta length neff wl0 ng loss (wl w)) ⟨i, hi⟩) ⟨j, hj⟩
    have e' := congrFun (congrFun (mzi_entry phi' theta' length neff' wl0 ng loss (wl w)) ⟨i, hi'⟩) ⟨j, hj'⟩
    have hn := Tol.index_diff length neff neff' wl0 ng (wl w) h0 (hwl w)
    obtain ⟨x, hx⟩ : ∃ x, x = 2 * Real.pi * neffAt neff wl0 ng (wl w) * length / wl w := ⟨_, rfl⟩
    obtain ⟨y, hy⟩ : ∃ y, y = 2 * Real.pi * neffAt neff' wl0 ng (wl w) * length / wl w := ⟨_, rfl⟩
    rw [← hx, Tol.smul_cross4] at e
    rw [← hy, Tol.smul_cross4] at e'
    rw [← hx, ← hy] at hn
    have hc : ∀ t : ℝ, ‖(Real.cos t : ℂ)‖ ≤ 1 := fun t => by rw [Complex.norm_real]; exact Real.abs_cos_le_one t
    have hs : ∀ t : ℝ, ‖(Real.sin t : ℂ)‖ ≤ 1 := fun t => by rw [Complex.norm_real]; exact Real.abs_sin_le_one t
    have h6 := Sens.turn_diff x y
    have h7 := Sens.turn_diff phi phi'
    have h8 := Tol.cos_near theta theta'
    have h9 := Tol.sin_near theta theta'
    have ha := abs_nonneg (phi' - phi)
    have hpc : ∀ t : ℝ, ‖Complex.exp ((phi' : ℝ) * Complex.I) * (Real.cos t : ℂ)‖ ≤ 1 := fun t => by
      rw [norm_mul, Complex.norm_exp_ofReal_mul_I, one_mul]; exact hc t
    have hps : ∀ t : ℝ, ‖Complex.exp ((phi' : ℝ) * Complex.I) * (Real.sin t : ℂ)‖ ≤ 1 := fun t => by
      rw [norm_mul, Complex.norm_exp_ofReal_mul_I, one_mul]; exact hs t
    refine le_of_eq_of_le (congrArg₂ (fun a b => ‖a - b‖) e' e) (Tol.cross4_near (by positivity) ?_ ?_ ?_ ?_ _ _)
    · have g1 := Tol.mul_near (a' := Complex.exp ((y : ℝ) * Complex.I)) (b := Complex.exp (phi * Complex.I) * Real.cos theta) (Tol.turn_one x) (hpc theta')
      have g2 := Tol.mul_near (a' := Complex.exp ((phi' : ℝ) * Complex.I)) (b := (Real.cos theta : ℂ)) (Tol.turn_one phi) (hc theta')
      linarith
    · have g1 := Tol.mul_near (a' := Complex.exp ((y : ℝ) * Complex.I)) (b := Complex.exp (phi * Complex.I) * Real.sin theta) (Tol.turn_one x) (hps theta')
      have g2 := Tol.mul_near (a' := Complex.exp ((phi' : ℝ) * Complex.I)) (b := (Real.sin theta : ℂ)) (Tol.turn_one phi) (hs theta')
      linarith
    · have g1 := Tol.mul_near (a' := Complex.exp ((y : ℝ) * Complex.I)) (b := -(Real.sin theta : ℂ)) (Tol.turn_one x)
        (by rw [norm_neg]; exact hs theta' : ‖-(Real.sin theta' : ℂ)‖ ≤ 1)
      rw [neg_sub_neg, norm_sub_rev (Real.sin theta : ℂ)] at g1
      linarith
    · have g1 := Tol.mul_near (a' := Complex.exp ((y : ℝ) * Complex.I)) (b := (Real.cos theta : ℂ)) (Tol.turn_one x) (hc theta')
      linarith
  · intro k k' hk hk'
    obtain ⟨h1, h2, -, -⟩ := hsq k k' hk hk'
    refine ⟨rfl, rfl, fun _ => rfl, fun w i j hi hj hi' hj' => ?_⟩
    exact le_of_eq_of_le (congrArg₂ (fun a b => ‖a - b‖) (congrFun (congrFun (coupler_shape k') ⟨i, hi'⟩) ⟨j, hj'⟩)
      (congrFun (congrFun (coupler_shape k) ⟨i, hi⟩) ⟨j, hj⟩)) (Tol.cross4_near (Real.sqrt_nonneg _) h1 h2 h2 h1 _ _)
  · intro k k' hk hk'
    obtain ⟨-, -, h3, h4⟩ := hsq k k' hk hk'
    refine ⟨rfl, rfl, fun _ => rfl, fun w i j hi hj hi' hj' => ?_⟩
    exact le_of_eq_of_le (congrArg₂ (fun a b => ‖a - b‖) (congrFun (congrFun (mirror_shape k') ⟨i, hi'⟩) ⟨j, hj'⟩)
      (congrFun (congrFun (mirror_shape k) ⟨i, hi⟩) ⟨j, hj⟩)) (Tol.cross2_near h4 h3 h4 _ _)
  · intro p
    exact ⟨rfl, rfl, fun _ => rfl, fun w i j hi hj hi' hj' => by rw [sub_self, norm_zero]⟩

/-- C155. Circuits without feedback. -/
theorem C155_feedforward (wl : W → ℝ) (δ : ℝ) (hδ : 0 ≤ δ) (d d' : Dev) (hV : Varied (fun p p' => Resembles δ wl p p' ∧ p.n ≤ 4) d d')
    (hM : MadeOf (fun p => ∀ wl, Contracts (scattering p wl)) d) (ht : d.comp.terminated = true)
    (front : ℕ → Bool) (rank : ℕ → ℕ) (hff : FeedForward d front rank) (D : ℕ) (hD : ∀ i < d.comp.n, rank i ≤ D) (v : ℝ)
    (hd : portsWith (d.plant v wl).det ≠ []) (dt : ℝ) (hdt : 0 < dt) (ε : ℝ) (hε : ε = 4 * δ) (hs : (D + 1) * ε < 1) :
    ResultsWithin ((D + 2) * ε / (1 - (D + 1) * ε)) (d.plant v wl) (d'.plant v wl) ∧
      RunsWithin ((D + 2) * ε / (1 - (D + 1) * ε)) dt (d.plant v wl) (d'.plant v wl) := by
  obtain ⟨S', e, h4, h5, h6⟩ := hV.plant hδ v
  rw [← e, hε]
  have key := C149_feedforward d hM ht front rank hff D hD v wl hd δ 4 hδ (by rw [hε] at hs; exact_mod_cast hs) S' h4 h6
  have key' := C150_feedforward d hM ht front rank hff D hD v wl hd dt hdt δ 4 hδ (by rw [hε] at hs; exact_mod_cast hs) S' h4 h5 h6
  exact ⟨by exact_mod_cast key, by exact_mod_cast key'⟩

/-- C155. Resonant circuits. -/
theorem C155_resonant {parts : List (Str × Part)} (h : Closed parts cs) (hP : ∀ q ∈ parts, ∀ wl, Contracts (scattering q.2 wl))
    (hdet : ∃ q ∈ parts, isDetector q.2 = true) (name : Option Str) (d : Dev)
    (hd : mkDev name (parts.map fun q => (q.1, q.2.dev)) (cs.map Conn.text) = .ok d) (ρ : ℝ) (h0 : 0 ≤ ρ) (h1 : ρ < 1)
    (hb : BuffersBy ρ parts cs) (wl : W → ℝ) (δ : ℝ) (hδ : 0 ≤ δ) (d' : Dev) (hV : Varied (fun p p' => Resembles δ wl p p' ∧ p.n ≤ 4) d d')
    (v dt : ℝ) (hdt : 0 < dt) (ε : ℝ) (hε : ε = 4 * δ) (hs : 2 * ε < 1 - ρ) :
    ResultsWithin (4 * ε / ((1 - ρ) * (1 - ρ - 2 * ε))) (d.plant v wl) (d'.plant v wl) ∧
      RunsWithin (4 * ε / ((1 - ρ) * (1 - ρ - 2 * ε))) dt (d.plant v wl) (d'.plant v wl) := by
  obtain ⟨S', e', h4, h5, h6⟩ := hV.plant hδ v
  obtain ⟨l, hPl⟩ := placed_of h hd
  have hen := fun w => C153_enhancement h hP name d hd ρ h0 h1 hb v wl w
  have hdev : ∀ w, DeviatesBy ε (cx ((d.plant v wl).rS w) ((d.plant v wl).iS w)) (S' w) := by
    intro w
    have := Sens.deviates_of_entries (h6 w) hδ
    rw [hε]
    exact_mod_cast this
  have hd0 := det_exists hPl v wl hdet
  have h1' : 0 < 1 - ρ := by linarith
  have h2' : 0 < 1 - ρ - 2 * ε := by linarith
  have hε' : 0 ≤ ε := by rw [hε]; positivity
  have hk : 2 / (1 - ρ) * ε < 1 := by rw [div_mul_eq_mul_div, div_lt_one h1']; exact hs
  have e : (2 / (1 - ρ)) ^ 2 * ε / (1 - 2 / (1 - ρ) * ε) = 4 * ε / ((1 - ρ) * (1 - ρ - 2 * ε)) := by
    have : 1 - 2 / (1 - ρ) * ε = (1 - ρ - 2 * ε) / (1 - ρ) := by field_simp
    rw [this]
    field_simp
    ring
  have k1 := C149_near d hPl.made hPl.term v wl hd0 (2 / (1 - ρ)) ε (by positivity) hk (fun w => (hen w).1) S' h4 hdev
  have k2 := C150_near d hPl.made hPl.term v wl hd0 dt hdt (2 / (1 - ρ)) ε (by positivity) hε' hk (fun w => (hen w).2 dt) S' h4 h5 hdev
  rw [e, e'] at k1 k2
  exact ⟨k1, k2⟩

/-- C155. Every circuit that can be simulated, with whatever components: for small deviations results change in proportion. -/
theorem C155_continuous [Finite W] (d : Dev) (hM : MadeOf (fun _ => True) d) (ht : d.comp.terminated = true) (v : ℝ) (wl : W → ℝ)
    (hd : portsWith (d.plant v wl).det ≠ []) (env : SimEnv) (hf : env.freqdomain = true) (r : Reduced W)
    (hr : initNet (d.plant v wl) env = .ok (some r)) (m : ℕ) :
    ∃ K δ₀ : ℝ, 0 < K ∧ 0 < δ₀ ∧ ∀ δ, 0 ≤ δ → δ ≤ δ₀ → ∀ d', Varied (fun p p' => Resembles δ wl p p' ∧ p.n ≤ m) d d' →
      ResultsWithin (K * δ) (d.plant v wl) (d'.plant v wl) := by
  obtain ⟨K, ε₀, hK, h0, h⟩ := C149_continuous d hM ht v wl hd env hf r hr
  have hm : (0 : ℝ) < m + 1 := by positivity
  refine ⟨K * (m + 1), ε₀ / (m + 1), by positivity, by positivity, fun δ hδ hδ' d' hV => ?_⟩
  obtain ⟨S', e', h4, -, h6⟩ := hV.plant hδ v
  rw [le_div_iff₀ hm] at hδ'
  have := h ((m + 1) * δ) (by positivity) (by linarith) S' h4 (fun w => ?_)
  · rw [e', ← mul_assoc] at this
    exact this
  · intro u
    refine (Sens.deviates_of_entries (h6 w) hδ u).trans (mul_le_mul_of_nonneg_right ?_ (Real.sqrt_nonneg _))
    linarith

/-- C155. Whatever components of the same kind one puts in their place, the circuit can be built. -/
theorem C155_built {R : Part → Part → Prop} (hR : ∀ p p', R p p' → p'.comp = p.comp) {pairs : List (Str × Part × Part)}
    (h : Closed (pairs.map fun q => (q.1, q.2.1)) cs) (hP : ∀ q ∈ pairs, R q.2.1 q.2.2 ∧ 0 < q.2.2.n) (name : Option Str) :
    ∃ d d', mkDev name (pairs.map fun q => (q.1, q.2.1.dev)) (cs.map Conn.text) = .ok d ∧
      mkDev name (pairs.map fun q => (q.1, q.2.2.dev)) (cs.map Conn.text) = .ok d' ∧ Varied R d d' := by
  obtain ⟨d, hd⟩ := C94_built h name
  rw [List.map_map] at hd
  have hd1 : mkDev name (pairs.map fun q => (q.1, q.2.1.dev)) (cs.map Conn.text) = .ok d := hd
  have hmods : (pairs.map fun q => (q.1, q.2.2.dev)).map (fun p => (p.1, p.2.comp)) =
      (pairs.map fun q => (q.1, q.2.1.dev)).map (fun p => (p.1, p.2.comp)) := by
    rw [List.map_map, List.map_map]
    refine List.map_congr_left fun q hq => ?_
    show (q.1, q.2.2.comp) = (q.1, q.2.1.comp)
    rw [hR _ _ (hP q hq).1]
  have hex : ∃ d', mkDev name (pairs.map fun q => (q.1, q.2.2.dev)) (cs.map Conn.text) = .ok d' := by
    have := hd1
    unfold mkDev at this ⊢
    rw [hmods]
    cases hc : mkNet name ((pairs.map fun q => (q.1, q.2.1.dev)).map fun p => (p.1, p.2.comp)) (cs.map Conn.text) with
    | error e => rw [hc] at this; cases this
    | ok c => exact ⟨_, rfl⟩
  obtain ⟨d', hd'⟩ := hex
  refine ⟨d, d', hd1, hd', ?_⟩
  have hplan := closed_plan h
  have ho : ∀ a i p, Conn.outer a i p ∈ cs → False := by
    intro a i p hm
    have : ((a, i), p) ∈ outs cs := mem_outs.2 hm
    rw [h.inner] at this
    cases this
  refine .net name (pairs.map fun q => (q.1, q.2.1.dev, q.2.2.dev)) cs d d' ?_ (hplan.goodConns fun a i p hm => (ho a i p hm).elim) hplan.usedOnce
    (hplan.contiguous (by simp) (by simp [h.inner])).1 ?_ ?_
  · intro q hq
    obtain ⟨q', hq', rfl⟩ := List.mem_map.mp hq
    exact .part _ _ (hP q' hq').1 (h.sized _ (List.mem_map.mpr ⟨q', hq', rfl⟩)) (hP q' hq').2
  · rw [List.map_map]
    exact hd1
  · rw [List.map_map]
    exact hd'

namespace Tol

/-- The line of C66 with a phase that is off. -/
theorem exLines (φ φ' : ℝ) (wl : W → ℝ) (hwl : ∀ w, wl w ≠ 0) : ∃ d d', mkDev none (exLineWith φ) (exLineCs.map Conn.text) = .ok d ∧
    mkDev none (exLineWith φ') (exLineCs.map Conn.text) = .ok d' ∧ Varied (fun p p' => Resembles |φ' - φ| wl p p' ∧ p.n ≤ 4) d d' ∧
    MadeOf (fun p => ∀ wl, Contracts (scattering p wl)) d ∧ d.comp.n = 4 ∧ d.comp.det = [false, false, false, true] ∧
    d.comp.terminated = true ∧ FeedForward d (fun i => i % 2 == 1) (fun i => (i + 1) / 2) := by
  obtain ⟨d, hd, hn, hdet, ht, hff⟩ := exLineWith_dev φ
  obtain ⟨d', hd', -⟩ := exLineWith_dev φ'
  obtain ⟨c1, -, -, -, c5⟩ := C155_components wl hwl
  have hw := c1 1e-5 100 100 2.34 2.34 1.55e-6 3.4 φ φ' (by norm_num) (by norm_num) (by norm_num) (by norm_num)
  rw [sub_self, sub_self, mul_zero, zero_div, abs_zero, mul_zero, mul_zero, add_zero, add_zero] at hw
  have hself : ∀ p : Part, Resembles |φ' - φ| wl p p := fun p => ⟨rfl, rfl, fun _ => rfl, fun w i j hi hj hi' hj' =>
    ((c5 p).near w i j hi hj hi' hj').trans (abs_nonneg _)⟩
  refine ⟨d, d', hd, hd', ?_, ?_, hn, hdet, ht, hff⟩
  · refine .net none [(['a'], Part.source.dev, Part.source.dev), (['w'], (Part.waveguide 1e-5 100 2.34 1.55e-6 3.4 φ).dev,
      (Part.waveguide 1e-5 100 2.34 1.55e-6 3.4 φ').dev), (['b'], Part.detector.dev, Part.detector.dev)] exLineCs d d' ?_
      (goodConns_dec (by decide +kernel)) ⟨by decide, by decide⟩ ⟨by decide, by decide, by decide⟩ hd hd'
    intro q hq
    simp only [List.mem_cons, List.not_mem_nil, or_false] at hq
    rcases hq with rfl | rfl | rfl
    · exact .part _ _ ⟨hself .source, by decide⟩ (by decide) (by decide)
    · exact .part _ _ ⟨hw, (by decide : 2 ≤ 4)⟩ (by decide : 0 < 2) (by decide : 0 < 2)
    · exact .part _ _ ⟨hself .detector, by decide⟩ (by decide) (by decide)
  · refine .net none (exLineWith φ) exLineCs d ?_ (goodConns_dec (by decide +kernel)) ⟨by decide, by decide⟩ ⟨by decide, by decide, by decide⟩ hd
    intro p hp
    simp only [exLineWith, List.mem_cons, List.not_mem_nil, or_false] at hp
    rcases hp with rfl | rfl | rfl
    · exact .part .source (C65_contracts_partial .source trivial (by simp)) (by decide)
    · exact .part _ (C65_contracts_partial (.waveguide 1e-5 100 2.34 1.55e-6 3.4 φ) ⟨by norm_num, by norm_num⟩ (by simp)) (by decide : 0 < 2)
    · exact .part .detector (C65_contracts_partial .detector trivial (by simp)) (by decide)

/-- The cavity of C153 with other mirrors and another phase. -/
noncomputable def exPairs : List (Str × Part × Part) :=
  [("s".toList, .source, .source), ("m".toList, .mirror (1 / 3), .mirror (1 / 3 + 1 / 10 ^ 8)),
    ("w".toList, Sens.exLossy.part, .waveguide 1e-5 200000 2.34 1.55e-6 3.4 (1 + 1 / 10 ^ 4)),
    ("n".toList, .mirror (1 / 3), .mirror (1 / 3 - 1 / 10 ^ 8)), ("d".toList, .detector, .detector)]

theorem exPairs_cavity : (exPairs.map fun q => (q.1, q.2.1)) = Sens.exCavity := rfl

theorem exPairs_near (q) (hq : q ∈ exPairs) : (Resembles (1 / 10 ^ 4) (fun _ : Unit => 1.5e-6) q.2.1 q.2.2 ∧ q.2.1.n ≤ 4) ∧ 0 < q.2.2.n := by
  obtain ⟨c1, -, -, c4, c5⟩ := C155_components (fun _ : Unit => (1.5e-6 : ℝ)) fun _ => by norm_num
  have hmono : ∀ {δ δ' : ℝ} {p p' : Part}, Resembles δ (fun _ : Unit => (1.5e-6 : ℝ)) p p' → δ ≤ δ' →
      Resembles δ' (fun _ : Unit => (1.5e-6 : ℝ)) p p' := fun h hδ =>
    ⟨h.comp, h.ports, h.delay, fun w i j hi hj hi' hj' => (h.near w i j hi hj hi' hj').trans hδ⟩
  have hsq : √|(1 / 10 ^ 8 : ℝ)| ≤ 1 / 10 ^ 4 := by
    rw [abs_of_pos (by norm_num), Real.sqrt_le_left (by norm_num)]
    norm_num
  simp only [exPairs, List.mem_cons, List.not_mem_nil, or_false] at hq
  rcases hq with rfl | rfl | rfl | rfl | rfl
  · exact ⟨⟨hmono (c5 .source) (by norm_num), by decide⟩, by decide⟩
  · refine ⟨⟨hmono (c4 _ _ (by norm_num) (by norm_num)) ?_, (by decide : 2 ≤ 4)⟩, (by decide : 0 < 2)⟩
    rw [add_sub_cancel_left]
    exact hsq
  · refine ⟨⟨hmono (c1 1e-5 200000 200000 2.34 2.34 1.55e-6 3.4 1 (1 + 1 / 10 ^ 4) (by norm_num) (by norm_num) (by norm_num) (by norm_num)) ?_,
      (by decide : 2 ≤ 4)⟩, (by decide : 0 < 2)⟩
    norm_num [abs_of_pos]
  · refine ⟨⟨hmono (c4 _ _ (by norm_num) (by norm_num)) ?_, (by decide : 2 ≤ 4)⟩, (by decide : 0 < 2)⟩
    rw [sub_sub_cancel_left, abs_neg]
    exact hsq
  · exact ⟨⟨hmono (c5 .detector) (by norm_num), by decide⟩, by decide⟩

end Tol

/-- Not vacuous: a line with a phase that is off by `1e-4`; results change by at most `1 / 600`. And the constants of `C155_continuous` exist
for it. -/
example : ∃ d d', mkDev none (exLineWith 1) (exLineCs.map Conn.text) = .ok d ∧
    mkDev none (exLineWith (1 + 1 / 10 ^ 4)) (exLineCs.map Conn.text) = .ok d' ∧
    (∃ q, q ≤ (1 / 600 : ℝ) ∧ ResultsWithin q (d.plant 1 fun _ : Unit => 1.5e-6) (d'.plant 1 fun _ : Unit => 1.5e-6) ∧
      RunsWithin q 1e-14 (d.plant 1 fun _ : Unit => 1.5e-6) (d'.plant 1 fun _ : Unit => 1.5e-6)) ∧
    ∃ K δ₀ : ℝ, 0 < K ∧ 0 < δ₀ ∧ ∀ δ, 0 ≤ δ → δ ≤ δ₀ → ∀ d', Varied (fun p p' => Resembles δ (fun _ : Unit => 1.5e-6) p p' ∧ p.n ≤ 4) d d' →
      ResultsWithin (K * δ) (d.plant 1 fun _ : Unit => 1.5e-6) (d'.plant 1 fun _ : Unit => 1.5e-6) := by
  obtain ⟨d, d', hd, hd', hV, hM, hn, hdet, ht, hff⟩ := Tol.exLines 1 (1 + 1 / 10 ^ 4) (fun _ : Unit => 1.5e-6) (fun _ => by norm_num)
  have hdl := exLine_det hn hdet 1 (fun _ : Unit => 1.5e-6)
  have e : |(1 + 1 / 10 ^ 4 : ℝ) - 1| = 1 / 10 ^ 4 := by norm_num [abs_of_pos]
  rw [e] at hV
  have h := C155_feedforward (fun _ : Unit => 1.5e-6) (1 / 10 ^ 4) (by norm_num) d d' hV hM ht _ _ hff 2
    (fun i hi => by rw [hn] at hi; show (i + 1) / 2 ≤ 2; omega) 1 hdl 1e-14 (by norm_num) _ rfl (by norm_num)
  obtain ⟨r, -, hr, -⟩ := h.1 ⟨none, true, [0]⟩ rfl rfl
  exact ⟨d, d', hd, hd', ⟨_, by norm_num, h⟩, C155_continuous d (madeOf_any hM) ht 1 _ hdl _ rfl r hr 4⟩

/-- Not vacuous: a cavity whose mirrors and phase are off; results change by at most `1 / 20`. -/
example : ∃ d d', mkDev none (Tol.exPairs.map fun q => (q.1, q.2.1.dev)) (Sens.exCavityConns.map Conn.text) = .ok d ∧
    mkDev none (Tol.exPairs.map fun q => (q.1, q.2.2.dev)) (Sens.exCavityConns.map Conn.text) = .ok d' ∧
    ∃ q, q ≤ (1 / 20 : ℝ) ∧ ResultsWithin q (d.plant 1 fun _ : Unit => 1.5e-6) (d'.plant 1 fun _ : Unit => 1.5e-6) ∧
      RunsWithin q 1e-14 (d.plant 1 fun _ : Unit => 1.5e-6) (d'.plant 1 fun _ : Unit => 1.5e-6) := by
  have hcl := Sens.exCavity_closed
  obtain ⟨d, d', hd, hd', hV⟩ := C155_built (R := fun p p' => Resembles (1 / 10 ^ 4) (fun _ : Unit => 1.5e-6) p p' ∧ p.n ≤ 4)
    (fun p p' h => h.1.comp) (pairs := Tol.exPairs) (by rw [Tol.exPairs_cavity]; exact hcl) Tol.exPairs_near none
  refine ⟨d, d', hd, hd', _, ?_, C155_resonant hcl ?_ ⟨("d".toList, .detector), by simp [Sens.exCavity], rfl⟩ none d hd (4 / 5) (by norm_num)
    (by norm_num) Sens.exCavity_buffers (fun _ : Unit => 1.5e-6) (1 / 10 ^ 4) (by norm_num) d' hV 1 1e-14 (by norm_num) _ rfl (by norm_num)⟩
  · norm_num
  · intro q hq
    simp only [Sens.exCavity, List.mem_cons, List.not_mem_nil, or_false] at hq
    rcases hq with rfl | rfl | rfl | rfl | rfl
    · exact C65_contracts_partial .source trivial (by simp)
    · exact C65_contracts_partial (.mirror (1 / 3)) ⟨by norm_num, by norm_num⟩ (by simp)
    · exact C65_contracts_partial Sens.exLossy.part ⟨by norm_num [Sens.exLossy], by norm_num [Sens.exLossy]⟩ (by simp [Wg.part])
    · exact C65_contracts_partial (.mirror (1 / 3)) ⟨by norm_num, by norm_num⟩ (by simp)
    · exact C65_contracts_partial .detector trivial (by simp)

end PT
