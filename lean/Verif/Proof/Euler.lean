import Verif.Spec.Agrawal
import Mathlib.Analysis.Calculus.MeanValue

/-!
# Explicit time steps of the rate equation of an amplifier
-/

namespace PT
open Spec Set

/-- One explicit step, `ρ = dt / tc`. -/
noncomputable def gainStep (G ρ p h : ℝ) : ℝ := h + ρ * ((G - h) - p * (Real.exp h - 1))

theorem exp_diff_le {G x y : ℝ} (hxy : x ≤ y) (hy : y ≤ G) : Real.exp y - Real.exp x ≤ Real.exp G * (y - x) := by
  have h1 : Real.exp x = Real.exp y * Real.exp (x - y) := by rw [← Real.exp_add]; congr 1; ring
  have h2 := Real.add_one_le_exp (x - y)
  have h3 := Real.exp_pos y
  have h4 : Real.exp y ≤ Real.exp G := Real.exp_le_exp.mpr hy
  nlinarith

theorem gainStep_mem {G ρ p h : ℝ} (hρ : 0 ≤ ρ) (hp : 0 ≤ p) (hs : ρ * (1 + p * Real.exp G) ≤ 1) (h0 : 0 ≤ h) (hG : h ≤ G) :
    0 ≤ gainStep G ρ p h ∧ gainStep G ρ p h ≤ G := by
  have e1 := exp_diff_le h0 hG
  have e2 : 1 ≤ Real.exp h := Real.one_le_exp h0
  have e3 := Real.exp_pos G
  rw [Real.exp_zero, sub_zero] at e1
  unfold gainStep
  have hρ1 : ρ ≤ 1 := by nlinarith [mul_nonneg hρ (mul_nonneg hp e3.le)]
  have h5 : ρ * (p * (Real.exp h - 1)) ≤ ρ * (p * (Real.exp G * h)) := by gcongr
  have h6 : 0 ≤ ρ * (p * (Real.exp h - 1)) := mul_nonneg hρ (mul_nonneg hp (by linarith))
  constructor
  · have h7 : ρ * (1 + p * Real.exp G) * h ≤ 1 * h := by gcongr
    nlinarith [mul_nonneg hρ (h0.trans hG)]
  · nlinarith [mul_nonneg (sub_nonneg.mpr hρ1) (sub_nonneg.mpr hG)]

theorem gainStep_contract {G ρ p x y : ℝ} (hρ : 0 ≤ ρ) (hp : 0 ≤ p) (hs : ρ * (1 + p * Real.exp G) ≤ 1) (hx : x ≤ G) (hy : y ≤ G) :
    |gainStep G ρ p x - gainStep G ρ p y| ≤ (1 - ρ) * |x - y| := by
  wlog hxy : y ≤ x generalizing x y
  · rw [abs_sub_comm, abs_sub_comm x]
    exact this hy hx (le_of_not_ge hxy)
  have e1 := exp_diff_le hxy hx
  have e2 : 0 ≤ Real.exp x - Real.exp y := sub_nonneg.mpr (Real.exp_le_exp.mpr hxy)
  have h1 : gainStep G ρ p x - gainStep G ρ p y = (1 - ρ) * (x - y) - ρ * (p * (Real.exp x - Real.exp y)) := by
    unfold gainStep; ring
  have h2 : ρ * (p * (Real.exp x - Real.exp y)) ≤ ρ * (p * (Real.exp G * (x - y))) := by gcongr
  have h3 : 0 ≤ ρ * (p * (Real.exp x - Real.exp y)) := mul_nonneg hρ (mul_nonneg hp e2)
  have h4 : ρ * (1 + p * Real.exp G) * (x - y) ≤ 1 * (x - y) := by
    have := sub_nonneg.mpr hxy
    gcongr
  rw [h1, abs_of_nonneg (sub_nonneg.mpr hxy), abs_of_nonneg (by nlinarith)]
  linarith

theorem Spec.Follows.right {G tc : ℝ} {p H : ℝ → ℝ} (hH : Follows G tc p H) {t : ℝ} (ht : 0 ≤ t) :
    HasDerivWithinAt H (gainRate G tc (p t) (H t)) (Ici t) t := (hH.equation t ht).mono (Ici_subset_Ici.mpr ht)

theorem Spec.Follows.continuousOn {G tc : ℝ} {p H : ℝ → ℝ} (hH : Follows G tc p H) {a b : ℝ} (ha : 0 ≤ a) : ContinuousOn H (Icc a b) :=
  fun t ht => ((hH.equation t (ha.trans ht.1)).continuousWithinAt).mono fun _ hx => ha.trans hx.1

/-- The gain stays between zero and its unsaturated value. -/
theorem Spec.Follows.mem {G tc : ℝ} {p H : ℝ → ℝ} (hH : Follows G tc p H) (htc : 0 < tc) (hG : 0 ≤ G) (hp : ∀ t, 0 ≤ t → 0 ≤ p t) {t : ℝ}
    (ht : 0 ≤ t) : 0 ≤ H t ∧ H t ≤ G := by
  constructor
  · have key : ∀ ε > 0, -H t ≤ ε := by
      intro ε hε
      refine image_le_of_deriv_right_lt_deriv_boundary (f := fun s => -H s) (f' := fun s => -gainRate G tc (p s) (H s)) (a := 0) (b := t)
        (hH.continuousOn le_rfl).neg (fun s hs => (hH.right hs.1).neg) (B := fun _ => ε) (B' := fun _ => 0) ?_
        (fun s => hasDerivAt_const _ _) (fun s hs hb => ?_) ⟨ht, le_rfl⟩
      · simp only [hH.start]; linarith
      · have hb' : H s = -ε := by have hb2 : -H s = ε := hb; linarith
        rw [hb', neg_lt_zero]
        have : Real.exp (-ε) ≤ 1 := Real.exp_le_one_iff.mpr (by linarith)
        unfold gainRate
        refine div_pos ?_ htc
        nlinarith [mul_nonneg (hp s hs.1) (sub_nonneg.mpr this)]
    by_contra h
    have := key (-H t / 2) (by linarith)
    linarith
  · have key : ∀ ε > 0, H t ≤ G + ε := by
      intro ε hε
      refine image_le_of_deriv_right_lt_deriv_boundary (f := H) (f' := fun s => gainRate G tc (p s) (H s)) (a := 0) (b := t)
        (hH.continuousOn le_rfl) (fun s hs => hH.right hs.1) (B := fun _ => G + ε) (B' := fun _ => 0) ?_
        (fun s => hasDerivAt_const _ _) (fun s hs hb => ?_) ⟨ht, le_rfl⟩
      · simp only [hH.start]; linarith
      · rw [hb]
        have : 1 ≤ Real.exp (G + ε) := Real.one_le_exp (by linarith)
        unfold gainRate
        refine div_neg_of_neg_of_pos ?_ htc
        nlinarith [mul_nonneg (hp s hs.1) (sub_nonneg.mpr this)]
    exact le_of_forall_pos_le_add key

theorem Spec.Follows.speed {G tc pm : ℝ} {p H : ℝ → ℝ} (hH : Follows G tc p H) (htc : 0 < tc) (hG : 0 ≤ G) (hp : ∀ t, 0 ≤ t → 0 ≤ p t)
    (hpm : ∀ t, 0 ≤ t → p t ≤ pm) {t : ℝ} (ht : 0 ≤ t) : |gainRate G tc (p t) (H t)| ≤ (G + pm * (Real.exp G - 1)) / tc := by
  obtain ⟨h0, h1⟩ := hH.mem htc hG hp ht
  have e1 : 1 ≤ Real.exp (H t) := Real.one_le_exp h0
  have e2 : Real.exp (H t) ≤ Real.exp G := Real.exp_le_exp.mpr h1
  unfold gainRate
  rw [abs_div, abs_of_pos htc]
  gcongr
  have h3 : 0 ≤ p t * (Real.exp (H t) - 1) := mul_nonneg (hp t ht) (by linarith)
  have h4 : p t * (Real.exp (H t) - 1) ≤ pm * (Real.exp G - 1) := by
    have := hpm t ht
    have := hp t ht
    gcongr
    linarith
  rw [abs_le]
  constructor <;> linarith

/-- `H` changes by at most `V` per time, in both directions. -/
theorem Spec.Follows.lipschitz {G tc pm : ℝ} {p H : ℝ → ℝ} (hH : Follows G tc p H) (htc : 0 < tc) (hG : 0 ≤ G) (hp : ∀ t, 0 ≤ t → 0 ≤ p t)
    (hpm : ∀ t, 0 ≤ t → p t ≤ pm) {s t : ℝ} (hs : 0 ≤ s) (ht : 0 ≤ t) :
    |H t - H s| ≤ (G + pm * (Real.exp G - 1)) / tc * |t - s| :=
  (convex_Ici (0 : ℝ)).norm_image_sub_le_of_norm_hasDerivWithin_le (f := H) (fun x hx => hH.equation x hx)
    (fun x hx => hH.speed htc hG hp hpm hx) hs ht

/-- The bound of the second derivative, times the carrier lifetime. -/
noncomputable def bend (G tc pm K : ℝ) : ℝ :=
  (1 + pm * Real.exp G) * ((G + pm * (Real.exp G - 1)) / tc) + K * (Real.exp G - 1)

theorem Spec.Follows.rate_lipschitz {G tc pm K : ℝ} {p H : ℝ → ℝ} (hH : Follows G tc p H) (htc : 0 < tc) (hG : 0 ≤ G) (hp : ∀ t, 0 ≤ t → 0 ≤ p t)
    (hpm : ∀ t, 0 ≤ t → p t ≤ pm) (hK : ∀ s t, 0 ≤ s → 0 ≤ t → |p t - p s| ≤ K * |t - s|) {s t : ℝ} (hs : 0 ≤ s) (ht : 0 ≤ t) :
    |gainRate G tc (p t) (H t) - gainRate G tc (p s) (H s)| ≤ bend G tc pm K / tc * |t - s| := by
  have hl := hH.lipschitz htc hG hp hpm hs ht
  obtain ⟨hs0, hs1⟩ := hH.mem htc hG hp hs
  obtain ⟨ht0, ht1⟩ := hH.mem htc hG hp ht
  set V := (G + pm * (Real.exp G - 1)) / tc with hV
  have he : |Real.exp (H t) - Real.exp (H s)| ≤ Real.exp G * |H t - H s| := by
    rcases le_total (H s) (H t) with h | h
    · rw [abs_of_nonneg (sub_nonneg.mpr (Real.exp_le_exp.mpr h)), abs_of_nonneg (sub_nonneg.mpr h)]
      exact exp_diff_le h ht1
    · rw [abs_sub_comm, abs_sub_comm (H t), abs_of_nonneg (sub_nonneg.mpr (Real.exp_le_exp.mpr h)), abs_of_nonneg (sub_nonneg.mpr h)]
      exact exp_diff_le h hs1
  have e1 : 1 ≤ Real.exp (H s) := Real.one_le_exp hs0
  have e2 : Real.exp (H s) ≤ Real.exp G := Real.exp_le_exp.mpr hs1
  have e3 := Real.exp_pos G
  have hp0 := hp t ht
  have hp1 := hpm t ht
  have split : gainRate G tc (p t) (H t) - gainRate G tc (p s) (H s) =
      (-(H t - H s) - p t * (Real.exp (H t) - Real.exp (H s)) - (p t - p s) * (Real.exp (H s) - 1)) / tc := by
    unfold gainRate; ring
  rw [split, abs_div, abs_of_pos htc, div_mul_eq_mul_div]
  refine div_le_div_of_nonneg_right ?_ htc.le
  have b1 : |p t * (Real.exp (H t) - Real.exp (H s))| ≤ pm * (Real.exp G * |H t - H s|) := by
    rw [abs_mul, abs_of_nonneg hp0]
    exact mul_le_mul hp1 he (abs_nonneg _) (hp0.trans hp1)
  have b2 : |(p t - p s) * (Real.exp (H s) - 1)| ≤ K * |t - s| * (Real.exp G - 1) := by
    rw [abs_mul, abs_of_nonneg (by linarith : (0 : ℝ) ≤ Real.exp (H s) - 1)]
    exact mul_le_mul (hK s t hs ht) (by linarith) (by linarith) ((abs_nonneg _).trans (hK s t hs ht))
  have b3 : |-(H t - H s)| = |H t - H s| := abs_neg _
  have tri : |-(H t - H s) - p t * (Real.exp (H t) - Real.exp (H s)) - (p t - p s) * (Real.exp (H s) - 1)| ≤
      |H t - H s| + pm * (Real.exp G * |H t - H s|) + K * |t - s| * (Real.exp G - 1) := by
    refine (abs_sub _ _).trans (add_le_add ((abs_sub _ _).trans (add_le_add b3.le b1)) b2)
  refine tri.trans ?_
  unfold bend
  have : (1 + pm * Real.exp G) * |H t - H s| ≤ (1 + pm * Real.exp G) * (V * |t - s|) := by
    have : 0 ≤ pm * Real.exp G := mul_nonneg (hp0.trans hp1) e3.le
    gcongr
  nlinarith

/-- One step starting on the solution. -/
theorem Spec.Follows.near {G tc pm K dt : ℝ} {p H : ℝ → ℝ} (hH : Follows G tc p H) (htc : 0 < tc) (hG : 0 ≤ G) (hp : ∀ t, 0 ≤ t → 0 ≤ p t)
    (hpm : ∀ t, 0 ≤ t → p t ≤ pm) (hK : ∀ s t, 0 ≤ s → 0 ≤ t → |p t - p s| ≤ K * |t - s|) {t : ℝ} (ht : 0 ≤ t) (hdt : 0 ≤ dt) :
    |H (t + dt) - gainStep G (dt / tc) (p t) (H t)| ≤ bend G tc pm K / tc * dt ^ 2 := by
  have h := (convex_Icc t (t + dt)).norm_image_sub_le_of_norm_hasDerivWithin_le
    (f := fun s => H s - s * gainRate G tc (p t) (H t))
    (f' := fun s => gainRate G tc (p s) (H s) - 1 * gainRate G tc (p t) (H t)) (C := bend G tc pm K / tc * dt) (x := t) (y := t + dt)
    (fun s hs => ((hH.equation s (ht.trans hs.1)).mono fun _ hx => ht.trans hx.1).sub ((hasDerivWithinAt_id s _).mul_const _))
    (fun s hs => by
      rw [one_mul]
      have h1 := hH.rate_lipschitz htc hG hp hpm hK ht (ht.trans hs.1)
      have hb : 0 ≤ bend G tc pm K / tc := by
        have h2 := (abs_nonneg _).trans (hH.rate_lipschitz htc hG hp hpm hK ht (by linarith : (0:ℝ) ≤ t + 1))
        rwa [add_sub_cancel_left, abs_one, mul_one] at h2
      refine h1.trans ?_
      have : |s - t| ≤ dt := by rw [abs_of_nonneg (by linarith [hs.1])]; linarith [hs.2]
      gcongr)
    ⟨le_rfl, by linarith⟩ ⟨by linarith, le_rfl⟩
  have e : H (t + dt) - gainStep G (dt / tc) (p t) (H t) =
      H (t + dt) - (t + dt) * gainRate G tc (p t) (H t) - (H t - t * gainRate G tc (p t) (H t)) := by
    unfold gainStep gainRate; ring
  rw [e]
  simp only [Real.norm_eq_abs, add_sub_cancel_left, abs_of_nonneg hdt] at h
  refine h.trans (le_of_eq (by ring))

/-- The states of the simulation stay near the solution, at all times. -/
theorem gain_error {G tc pm K dt : ℝ} {p H : ℝ → ℝ} (hH : Follows G tc p H) (htc : 0 < tc) (hG : 0 ≤ G) (hp : ∀ t, 0 ≤ t → 0 ≤ p t)
    (hpm : ∀ t, 0 ≤ t → p t ≤ pm) (hK : ∀ s t, 0 ≤ s → 0 ≤ t → |p t - p s| ≤ K * |t - s|) (hdt : 0 < dt)
    (hs : dt * (1 + pm * Real.exp G) ≤ tc) {N : ℕ} {h : ℕ → ℝ} (h0 : h 0 = 0)
    (hstep : ∀ n < N, h (n + 1) = gainStep G (dt / tc) (p (n * dt)) (h n)) :
    ∀ n ≤ N, (0 ≤ h n ∧ h n ≤ G) ∧ |h n - H (n * dt)| ≤ bend G tc pm K * dt := by
  have hρ : 0 ≤ dt / tc := by positivity
  have hs' : ∀ t, 0 ≤ t → dt / tc * (1 + p t * Real.exp G) ≤ 1 := by
    intro t ht
    rw [div_mul_eq_mul_div, div_le_one htc]
    refine le_trans ?_ hs
    have := hpm t ht
    gcongr
  have hb : 0 ≤ bend G tc pm K := by
    have h2 := (abs_nonneg _).trans (hH.rate_lipschitz htc hG hp hpm hK le_rfl zero_le_one)
    rw [sub_zero, abs_one, mul_one] at h2
    rwa [le_div_iff₀ htc, zero_mul] at h2
  intro n
  induction n with
  | zero =>
    intro _
    rw [h0, Nat.cast_zero, zero_mul, hH.start, sub_zero, abs_zero]
    exact ⟨⟨le_rfl, hG⟩, mul_nonneg hb hdt.le⟩
  | succ n ih =>
    intro hn
    obtain ⟨hm, he⟩ := ih (by omega)
    have htn : (0 : ℝ) ≤ n * dt := by positivity
    rw [hstep n (by omega)]
    refine ⟨gainStep_mem hρ (hp _ htn) (hs' _ htn) hm.1 hm.2, ?_⟩
    have l := hH.near htc hG hp hpm hK htn hdt.le
    have c := gainStep_contract hρ (hp _ htn) (hs' _ htn) hm.2 (hH.mem htc hG hp htn).2
    have hn1 : ((n + 1 : ℕ) : ℝ) * dt = n * dt + dt := by push_cast; ring
    rw [hn1]
    have hρ1 : 0 ≤ 1 - dt / tc := by
      have := hs' _ htn
      have : 0 ≤ dt / tc * (p (n * dt) * Real.exp G) := mul_nonneg hρ (mul_nonneg (hp _ htn) (Real.exp_pos G).le)
      nlinarith
    calc |gainStep G (dt / tc) (p (n * dt)) (h n) - H (n * dt + dt)|
        ≤ |gainStep G (dt / tc) (p (n * dt)) (h n) - gainStep G (dt / tc) (p (n * dt)) (H (n * dt))| +
          |gainStep G (dt / tc) (p (n * dt)) (H (n * dt)) - H (n * dt + dt)| := abs_sub_le _ _ _
      _ ≤ (1 - dt / tc) * (bend G tc pm K * dt) + bend G tc pm K / tc * dt ^ 2 := by
        refine add_le_add (c.trans (mul_le_mul_of_nonneg_left he hρ1)) ?_
        rw [abs_sub_comm]
        exact l
      _ = bend G tc pm K * dt := by field_simp; ring

end PT
