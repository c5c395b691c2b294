import Mathlib.Analysis.SpecialFunctions.ExpDeriv
import Mathlib.Analysis.SpecialFunctions.Sqrt
import Mathlib.Analysis.Calculus.Deriv.Comp
import Mathlib.Analysis.Calculus.Deriv.Prod
import Verif.Model.Numbers
import Verif.Spec.Numbers
import Verif.Props.Components
import Verif.Props.Train
import Verif.Props.Bounded

/-!
# C121: scattering matrices consist of numbers; C122: so do gradients
-/

namespace PT
open Spec

theorem root_some {x : ℝ} (h : 0 ≤ x) : tensorRoot x = some √x := if_neg (not_lt.2 h)

theorem root_none {x : ℝ} (h : x < 0) : tensorRoot x = none := if_pos h

theorem div_some {x y : ℝ} (h : y ≠ 0) : tensorDiv x y = some (x / y) := if_neg h

theorem div_none (x : ℝ) : tensorDiv x 0 = none := if_pos rfl

theorem propagation_some {length neff wl0 ng wl : ℝ} (h0 : wl0 ≠ 0) (h : wl ≠ 0) :
    propagationNumber length neff wl0 ng wl = some (propagation length neff wl0 ng wl) := by
  unfold propagationNumber
  rw [div_some h0, Option.bind_some, div_some h]
  rfl

theorem propagation_none {length neff wl0 ng wl : ℝ} (h : ¬(wl0 ≠ 0 ∧ wl ≠ 0)) : propagationNumber length neff wl0 ng wl = none := by
  unfold propagationNumber
  by_cases h0 : wl0 = 0
  · subst h0
    rw [div_none]
    rfl
  · have : wl = 0 := by
      by_contra hw
      exact h ⟨h0, hw⟩
    subst this
    rw [div_some h0, Option.bind_some, div_none]
    rfl

/-- C121: the scattering matrix at a wavelength consists of numbers (those of the formulas, `Part.S`) exactly if the arguments make sense. -/
theorem C121_numbers (p : Part) (wl : ℝ) : (Sensible wl p → p.number wl = some (p.S wl)) ∧ (¬Sensible wl p → p.number wl = none) := by
  classical
  cases p with
  | term => exact ⟨fun _ => rfl, fun h => absurd trivial h⟩
  | source => exact ⟨fun _ => rfl, fun h => absurd trivial h⟩
  | detector => exact ⟨fun _ => rfl, fun h => absurd trivial h⟩
  | connection => exact ⟨fun _ => rfl, fun h => absurd trivial h⟩
  | linearSoa a => exact ⟨fun _ => rfl, fun h => absurd trivial h⟩
  | mmi m n re im => exact ⟨fun _ => rfl, fun h => absurd trivial h⟩
  | mirror R =>
    constructor
    · rintro ⟨h0, h1⟩
      simp only [Part.number]
      rw [root_some h0, root_some (sub_nonneg.2 h1)]
      rfl
    · intro h
      simp only [Part.number]
      rcases lt_or_ge R 0 with h0 | h0
      · rw [root_none h0]; rfl
      · rw [root_some h0, root_none (x := 1 - R)]
        · rfl
        · by_contra hn
          exact h ⟨h0, by linarith⟩
  | coupler k =>
    constructor
    · rintro ⟨h0, h1⟩
      simp only [Part.number]
      rw [root_some h0, root_some (sub_nonneg.2 h1)]
      rfl
    · intro h
      simp only [Part.number]
      rcases lt_or_ge k 0 with h0 | h0
      · rw [root_none h0]
        cases tensorRoot (1 - k) <;> rfl
      · rw [root_none (x := 1 - k)]
        · rfl
        · by_contra hn
          exact h ⟨h0, by linarith⟩
  | longCoupler length k loss neff wl0 ng φ =>
    constructor
    · rintro ⟨h0, h1⟩
      simp only [Part.number]
      rw [root_some h0, root_some (sub_nonneg.2 h1)]
      rfl
    · intro h
      simp only [Part.number]
      rcases lt_or_ge k 0 with h0 | h0
      · rw [root_none h0]; rfl
      · rw [root_some h0, root_none (x := 1 - k)]
        · rfl
        · by_contra hn
          exact h ⟨h0, by linarith⟩
  | waveguide length loss neff wl0 ng φ =>
    constructor
    · rintro ⟨h0, h1⟩
      simp only [Part.number]
      rw [propagation_some h0 h1]
      rfl
    · intro h
      simp only [Part.number]
      rw [propagation_none h]
      rfl
  | mzi φ θ neff ng wl0 length loss =>
    constructor
    · rintro ⟨h0, h1⟩
      simp only [Part.number]
      rw [propagation_some h0 h1]
      rfl
    · intro h
      simp only [Part.number]
      rw [propagation_none h]
      rfl
  | realisticCoupler length k0 n0 d1k d1n d2k d2n wl0 =>
    constructor
    · intro h
      simp only [Part.number]
      rw [div_some h]
      rfl
    · intro h
      have : wl = 0 := not_not.1 h
      subst this
      simp only [Part.number]
      rw [div_none]
      rfl
  | grating R Rin Tmax bw wl0 =>
    simp only [Part.number, Sensible, gaussianNumber, Part.S, gratingS, grating_sigma]
    by_cases hb : bw = 0
    · rw [if_pos hb, if_pos hb]
      constructor
      · intro h
        have : ¬(-((wl0 - wl) ^ 2) = 0) := by
          intro hz
          have h2 : (wl0 - wl) ^ 2 = 0 := by linarith
          exact h (by have := pow_eq_zero_iff (two_ne_zero) |>.1 h2; linarith)
        rw [if_neg this, Option.bind_some, root_some (by rw [mul_zero]), if_pos hb]
        rfl
      · intro h
        have : wl = wl0 := not_not.1 h
        rw [if_pos (by rw [this]; ring)]
        rfl
    · rw [if_neg hb, if_neg hb, Option.bind_some]
      have he := Real.exp_pos (-((wl0 - wl) ^ 2) / (2 * (1 / (2 * √(2 * Real.log 2)) * bw) ^ 2))
      constructor
      · intro h
        rw [root_some (mul_nonneg h he.le), if_neg hb]
        rfl
      · intro h
        rw [root_none (mul_neg_of_neg_of_pos (not_le.1 h) he)]
        rfl

/-- A grating coupler without bandwidth transmits nothing, except at its center wavelength, where there is no number. -/
example : (Part.grating 0.1 0.1 1 0 1.55e-6).number 1.5e-6 = some ((Part.grating 0.1 0.1 1 0 1.55e-6).S 1.5e-6) ∧
    (Part.grating 0.1 0.1 1 0 1.55e-6).number 1.55e-6 = none :=
  ⟨(C121_numbers _ _).1 (by simp only [Sensible, if_true]; norm_num), (C121_numbers _ _).2 (by simp [Sensible])⟩

/-- C121 as one would like it: every component that can be constructed has a scattering matrix of numbers at all positive wavelengths. -/
def C121 : Prop := ∀ (c : Call) (o : Obj), c.new = .ok o → ∀ wl : ℝ, 0 < wl → (asked c).number wl = some ((asked c).S wl)

/-- C121 is violated: couplings that are not trainable are not checked, so those above one (or below zero) give `nan`. -/
theorem C121_violation : ¬C121 := by
  intro h
  obtain ⟨o, ho⟩ := (C117_accepts (.coupler 1.2 false)).1 (fun h => by cases h)
  have h1 := h _ o ho 1 one_pos
  have h2 := (C121_numbers (.coupler 1.2) 1).2 (fun hs => by have := hs.2; norm_num at this)
  rw [show asked (.coupler 1.2 false) = .coupler 1.2 from rfl, h2] at h1
  cases h1

/-- C121 (what holds): components whose arguments make sense have scattering matrices of numbers, and keep them however they are trained. -/
theorem C121_trained_partial (c : Call) (o : Obj) (h : c.new = .ok o) (wl : ℝ) (hs : Sensible wl (asked c))
    (δs : List ((Str → ℝ) × (ℕ → ℕ → ℕ → ℝ))) :
    ∃ p : Part, (δs.foldl Obj.train o).dev = .ok p.dev ∧ p.number wl = some (p.S wl) := by
  obtain ⟨p, h1, h2, -, -, h3, -⟩ := C117_trained c o h δs
  refine ⟨p, h1, (C121_numbers p wl).1 ?_⟩
  generalize asked c = q at h2 h3 hs
  cases h2 with
  | refl => exact hs
  | mirror R R' => exact h3 hs
  | waveguide => exact hs
  | coupler k k' => exact h3 hs
  | longCoupler => exact h3 hs
  | mzi => exact hs
  | linearSoa => trivial
  | mmi => trivial

/-- C121 (what holds): for mirrors and trainable couplers it is enough that the constructor accepts them. -/
theorem C121_accepted_partial (c : Call) (hc : (∃ R t, c = .mirror R t) ∨ (∃ k, c = .coupler k true) ∨
      ∃ length k loss neff wl0 ng phase tp, c = .longCoupler length k loss neff wl0 ng phase tp true) (o : Obj) (h : c.new = .ok o) (wl : ℝ)
    (δs : List ((Str → ℝ) × (ℕ → ℕ → ℕ → ℝ))) :
    ∃ p : Part, (δs.foldl Obj.train o).dev = .ok p.dev ∧ p.number wl = some (p.S wl) := by
  have ha : Acceptable c := by
    by_contra hn
    rw [(C117_accepts c).2 hn] at h
    cases h
  refine C121_trained_partial c o h wl ?_ δs
  rcases hc with ⟨R, t, rfl⟩ | ⟨k, rfl⟩ | ⟨length, k, loss, neff, wl0, ng, phase, tp, rfl⟩
  · exact ha
  · exact ha rfl
  · exact ha rfl

example : ∃ o p, (Call.coupler 1 true).new = .ok o ∧ (Obj.train o (fun _ => -3, fun _ _ _ => 0)).dev = .ok (Part.dev p) ∧
    p.number 1.55e-6 = some (p.S 1.55e-6) := by
  obtain ⟨o, ho⟩ := (C117_accepts (.coupler 1 true)).1 (fun _ => by norm_num)
  obtain ⟨p, h1, h2⟩ := C121_accepted_partial _ (.inr (.inl ⟨1, rfl⟩)) o ho 1.55e-6 [(fun _ => -3, fun _ _ _ => 0)]
  exact ⟨o, p, ho, h1, h2⟩

/-! ## Gradients -/

theorem floatMul_real (x y : ℝ) : floatMul (some (x : EReal)) (some (y : EReal)) = some ((x * y : ℝ) : EReal) := by
  unfold floatMul
  simp only [Option.bind_some]
  rw [if_neg (by simp), EReal.coe_mul]

theorem floatMul_none (x : Option EReal) : floatMul none x = none ∧ floatMul x none = none := by
  constructor
  · rfl
  · cases x <;> rfl

theorem floatMul_zero_top : floatMul (some 0) (some ⊤) = none := by
  simp [floatMul]

theorem floatMul_inf_zero {x : EReal} (h : x = ⊤ ∨ x = ⊥) : floatMul (some x) (some 0) = none := by
  rcases h with rfl | rfl <;> simp [floatMul]

/-- A nonzero number times infinity is infinite. -/
theorem floatMul_real_inf {x : ℝ} (hx : x ≠ 0) {y : EReal} (hy : y = ⊤ ∨ y = ⊥) :
    ∃ z, (z = ⊤ ∨ z = ⊥) ∧ floatMul (some (x : EReal)) (some y) = some z ∧ floatMul (some y) (some (x : EReal)) = some z := by
  have hx' : (x : EReal) ≠ 0 := by simpa using hx
  have h1 : floatMul (some (x : EReal)) (some y) = some (x * y) := by
    unfold floatMul
    simp only [Option.bind_some]
    rw [if_neg]
    rintro (h | h)
    · exact hx' h.1
    · rcases hy with rfl | rfl <;> simp at h
  have h2 : floatMul (some y) (some (x : EReal)) = some (x * y) := by
    unfold floatMul
    simp only [Option.bind_some]
    rw [if_neg, mul_comm]
    rintro (h | h)
    · rcases hy with rfl | rfl <;> simp at h
    · exact hx' h.1
  refine ⟨x * y, ?_, h1, h2⟩
  rcases lt_or_gt_of_ne hx with h | h <;> rcases hy with rfl | rfl
  · exact .inr (EReal.coe_mul_top_of_neg h)
  · exact .inl (EReal.coe_mul_bot_of_neg h)
  · exact .inl (EReal.coe_mul_top_of_pos h)
  · exact .inr (EReal.coe_mul_bot_of_pos h)

/-- What a root passes on at zero is infinite or `nan`. -/
theorem root_at_zero (g : ℝ) : rootBackward 0 g = none ∨ ∃ z, (z = ⊤ ∨ z = ⊥) ∧ rootBackward 0 g = some z := by
  unfold rootBackward
  rw [if_neg (lt_irrefl _), if_pos rfl]
  by_cases hg : g = 0
  · subst hg
    exact .inl floatMul_zero_top
  · obtain ⟨z, h1, h2, -⟩ := floatMul_real_inf hg (.inl rfl : (⊤ : EReal) = ⊤ ∨ (⊤ : EReal) = ⊥)
    exact .inr ⟨z, h1, h2⟩

/-- At the bounds, what is infinite or `nan` becomes `nan`. -/
theorem bounded_at_bound {w : EReal} (hw : w = ⊤ ∨ w = ⊥) {g : Option EReal} (hg : g = none ∨ ∃ z, (z = ⊤ ∨ z = ⊥) ∧ g = some z) :
    boundedBackward w 0 1 g = none := by
  unfold boundedBackward
  rcases hg with rfl | ⟨z, hz, rfl⟩
  · rw [(floatMul_none _).1, (floatMul_none _).1, (floatMul_none _).1]
  · obtain ⟨z1, hz1, -, e1⟩ := floatMul_real_inf (x := (1 - 0 : ℝ)) (by norm_num) hz
    rw [e1]
    rcases hw with rfl | rfl
    · rw [tsigmoid_top, sub_self, EReal.coe_zero, floatMul_inf_zero hz1, (floatMul_none _).1]
    · rw [tsigmoid_bot, sub_zero]
      obtain ⟨z2, hz2, -, e2⟩ := floatMul_real_inf (x := (1 : ℝ)) (by norm_num) hz1
      rw [e2, EReal.coe_zero, floatMul_inf_zero hz2]

/-- C122 is violated: at the bounds, which the constructors accept, the gradient of the weight of a coupling or reflectivity is always `nan`, even
if the loss depends on neither root; after a step of gradient descent the value itself is `nan`. -/
theorem C122_violation (x : ℝ) (hx : x = 0 ∨ x = 1) : ∃ w, boundedNew [x] 0 1 = .ok ⟨[w], 0, 1⟩ ∧ valueNumber (some w) 0 1 = some x ∧
    ∀ gk gt lr : ℝ, ratioBackward w 0 1 gk gt = none ∧
      valueNumber (descend lr (some w) (ratioBackward w 0 1 gk gt)) 0 1 = none := by
  have key : ∀ w : EReal, (w = ⊤ ∨ w = ⊥) → ∀ gk gt : ℝ, ratioBackward w 0 1 gk gt = none := by
    intro w hw gk gt
    unfold ratioBackward
    rcases hw with rfl | rfl
    · have e : (1 : ℝ) - boundedValue ⊤ 0 1 = 0 := by rw [boundedValue, tsigmoid_top]; ring
      rw [e, bounded_at_bound (.inl rfl)]
      · rfl
      · rcases root_at_zero gt with h | ⟨z, hz, h⟩
        · rw [h]; exact .inl rfl
        · rw [h]
          refine .inr ⟨-z, ?_, rfl⟩
          rcases hz with rfl | rfl
          · exact .inr EReal.neg_top
          · exact .inl EReal.neg_bot
    · have e : boundedValue ⊥ 0 1 = 0 := by rw [boundedValue, tsigmoid_bot]; ring
      rw [e, bounded_at_bound (.inr rfl) (root_at_zero gk)]
      unfold floatAdd
      cases boundedBackward ⊥ 0 1 _ <;> rfl
  have hin : 0 ≤ x ∧ x ≤ 1 := by rcases hx with rfl | rfl <;> norm_num
  refine ⟨inverseSigmoid x 0 1, ?_, ?_, ?_⟩
  · unfold boundedNew
    rw [if_neg (by norm_num), if_neg]
    · rfl
    · push Not
      exact ⟨by simpa using hin.1, by simpa using hin.2⟩
  · show some (boundedValue _ 0 1) = some _
    rw [inverse_value x 0 1 one_pos hin.1 hin.2]
  · intro gk gt lr
    have hw : inverseSigmoid x 0 1 = ⊤ ∨ inverseSigmoid x 0 1 = ⊥ := by
      have hv := inverse_value x 0 1 one_pos hin.1 hin.2
      generalize inverseSigmoid x 0 1 = w at hv
      induction w using EReal.rec with
      | bot => exact .inr rfl
      | top => exact .inl rfl
      | coe r =>
        exfalso
        have hr : boundedValue (r : EReal) 0 1 = 1 / (1 + Real.exp (-r)) := by
          show (1 - 0) * (1 / (1 + Real.exp (-r))) + 0 = _
          ring
        rw [hr] at hv
        have he := Real.exp_pos (-r)
        rcases hx with rfl | rfl
        · have : 0 < 1 / (1 + Real.exp (-r)) := by positivity
          linarith
        · rw [div_eq_one_iff_eq (by positivity)] at hv
          linarith
    have h := key _ hw gk gt
    refine ⟨h, ?_⟩
    rw [h]
    rfl

/-- C122 (what holds): strictly between the bounds, the gradient of the weight is a number: the derivative of the loss, for every loss that is
differentiable in the two roots. -/
theorem C122_gradient_partial (r : ℝ) (L : ℝ × ℝ → ℝ) (gk gt : ℝ)
    (hL : HasFDerivAt L (gk • ContinuousLinearMap.fst ℝ ℝ ℝ + gt • ContinuousLinearMap.snd ℝ ℝ ℝ) (√(logistic r), √(1 - logistic r))) :
    ∃ g : ℝ, ratioBackward (r : EReal) 0 1 gk gt = some (g : EReal) ∧
      HasDerivAt (fun v => L (√(logistic v), √(1 - logistic v))) g r := by
  have he := Real.exp_pos (-r)
  set s := logistic r with hs
  have hs0 : 0 < s := by rw [hs, logistic]; positivity
  have hs1 : 0 < 1 - s := by
    rw [hs, logistic]
    have : 1 - 1 / (1 + Real.exp (-r)) = Real.exp (-r) / (1 + Real.exp (-r)) := by field_simp; ring
    rw [this]
    positivity
  have hsig : tsigmoid (r : EReal) = s := rfl
  have hval : boundedValue (r : EReal) 0 1 = s := by rw [boundedValue, hsig]; ring
  have hroot : ∀ x g : ℝ, 0 < x → rootBackward x g = some ((g * (0.5 * (√x)⁻¹) : ℝ) : EReal) := by
    intro x g hx
    unfold rootBackward
    rw [if_neg (not_lt.2 hx.le), if_neg hx.ne', floatMul_real]
  have hb : ∀ g : ℝ, boundedBackward (r : EReal) 0 1 (some (g : EReal)) = some ((g * (1 - 0) * (1 - s) * s : ℝ) : EReal) := by
    intro g
    unfold boundedBackward
    rw [hsig, floatMul_real, floatMul_real, floatMul_real]
  have hadd : ∀ x y : ℝ, floatAdd (some (x : EReal)) (some (y : EReal)) = some ((x + y : ℝ) : EReal) := by
    intro x y
    unfold floatAdd
    simp only [Option.bind_some]
    rw [if_neg (by simp), EReal.coe_add]
  refine ⟨-(gt * (0.5 * (√(1 - s))⁻¹)) * (1 - 0) * (1 - s) * s + gk * (0.5 * (√s)⁻¹) * (1 - 0) * (1 - s) * s, ?_, ?_⟩
  · unfold ratioBackward
    rw [hval, hroot _ _ hs1, hroot _ _ hs0, Option.map_some, ← EReal.coe_neg, hb, hb, hadd]
  · have hlog : HasDerivAt logistic ((1 - s) * s) r := by
      have h1 : HasDerivAt (fun v : ℝ => Real.exp (-v)) (-Real.exp (-r)) r := by
        exact (hasDerivAt_neg r).exp.congr_deriv (by ring)
      have h2 := (h1.const_add 1).fun_inv (by positivity : 1 + Real.exp (-r) ≠ 0)
      have e : logistic = fun v => (1 + Real.exp (-v))⁻¹ := by funext v; rw [logistic, one_div]
      rw [e]
      refine h2.congr_deriv ?_
      rw [hs, logistic]
      field_simp
      ring
    have h1 : HasDerivAt (fun v => √(logistic v)) ((1 - s) * s / (2 * √s)) r := hlog.sqrt (by rw [← hs]; exact hs0.ne')
    have h2 : HasDerivAt (fun v => √(1 - logistic v)) (-((1 - s) * s) / (2 * √(1 - s))) r :=
      (hlog.const_sub 1).sqrt (by rw [← hs]; exact hs1.ne')
    have h3 := hL.comp_hasDerivAt r (h1.prodMk h2)
    refine h3.congr_deriv ?_
    simp only [ContinuousLinearMap.add_apply, ContinuousLinearMap.smul_apply, ContinuousLinearMap.coe_fst', ContinuousLinearMap.coe_snd',
      smul_eq_mul]
    have q0 := (Real.sqrt_pos.2 hs0).ne'
    have q1 := (Real.sqrt_pos.2 hs1).ne'
    field_simp
    ring

/-- Half of the power coupled: the derivative of the coupled power is a quarter, the weight being zero. -/
example : ratioBackward ((0 : ℝ) : EReal) 0 1 (2 * √(1 / 2)) 0 = some (((1 / 4 : ℝ)) : EReal) := by
  have hl : logistic 0 = 1 / 2 := by rw [logistic]; norm_num
  obtain ⟨g, h1, h2⟩ := C122_gradient_partial 0 (fun x => x.1 ^ 2) (2 * √(1 / 2)) 0 (by
    rw [hl, zero_smul, add_zero]
    have := (hasFDerivAt_fst (𝕜 := ℝ) (p := ((√(1 / 2) : ℝ), (√(1 - 1 / 2) : ℝ)))).pow 2
    simpa using this)
  rw [h1]
  have h3 : HasDerivAt logistic g 0 := by
    refine h2.congr_of_eventuallyEq (Filter.Eventually.of_forall fun v => ?_)
    have : 0 ≤ logistic v := by rw [logistic]; positivity
    simp only [Real.sq_sqrt this]
  have h4 : HasDerivAt logistic (1 / 4) 0 := by
    have h1 : HasDerivAt (fun v : ℝ => Real.exp (-v)) (-Real.exp (-0)) 0 := by
      exact (hasDerivAt_neg (0 : ℝ)).exp.congr_deriv (by ring)
    have h2 := (h1.const_add 1).fun_inv (by positivity : 1 + Real.exp (-0) ≠ 0)
    have e : logistic = fun v => (1 + Real.exp (-v))⁻¹ := by funext v; rw [logistic, one_div]
    rw [e]
    refine h2.congr_deriv ?_
    norm_num
  rw [h3.unique h4]

end PT
