import Verif.Proof.Plot

/-!
# C59: plot labels name the right curve

The property is violated: data at one wavelength of an environment with as many wavelengths as detectors are labelled by
wavelengths, and detectors within subnetworks shift the labels.  It holds for whole results of networks without such detectors.
-/

namespace PT
open Spec

variable {α : Type}

theorem plot_eq {cs : List PlotComp} {t wl : List ℚ} {x y : Arr α} (h : x.squeeze = y.squeeze)
    (hx : x.shape.length = 4 → x.shape.getD 0 0 = 1 → x.shape.getD 1 0 ≠ 1)
    (hy : y.shape.length = 4 → y.shape.getD 0 0 = 1 → y.shape.getD 1 0 ≠ 1) : plot cs t wl x = plot cs t wl y := by
  unfold plot
  rw [if_neg (fun h => hx h.1 h.2.1 h.2.2), if_neg (fun h => hy h.1 h.2.1 h.2.2), h]

theorem plot_time {cs : List PlotComp} {t wl : List ℚ} {x : Arr α} {n : ℕ} {s : List ℕ} (hs : x.squeeze.shape = n :: s)
    (hn : t.length = n) (hT : 2 ≤ t.length) (h0 : x.shape.getD 0 0 ≠ 1) {f : ℤ} (hf : axisUnit t = .ok f) {c : List (Curve α)}
    (hc : curvesTime cs t.length wl x.squeeze = .ok c) :
    plot cs t wl x = .ok ⟨true, c, f, t.map fun v => (v : ℝ) * 10 ^ (-f)⟩ := by
  unfold plot
  rw [if_neg (by tauto)]
  simp only [hs, hn, if_true, hf, Except.bind]
  rw [← hn, hc]; rfl

theorem plot_wl {cs : List PlotComp} {t wl : List ℚ} {x : Arr α} {n : ℕ} {s : List ℕ} (hs : x.squeeze.shape = n :: s)
    (ht : t.length ≠ n) (hn : wl.length = n) (h0 : x.shape.length = 4 → x.shape.getD 1 0 ≠ 1) {f : ℤ}
    (hf : axisUnit wl = .ok f) {c : List (Curve α)} (hc : curvesWl cs wl x.squeeze = .ok c) :
    plot cs t wl x = .ok ⟨false, c, f, wl.map fun v => (v : ℝ) * 10 ^ (-f)⟩ := by
  unfold plot
  rw [if_neg (by tauto)]
  simp only [hs, ht, hn, if_true, if_false, hf, Except.bind]
  rw [hc]; rfl

/-- The axis of a plot: the values are multiples of the unit shown, for grids with a maximum from 1e-13 to 1e17. -/
theorem C59_axis {x : List ℚ} {m : ℚ} (hm : x.max? = some m) (h1 : (10 : ℝ) ^ (-13 : ℤ) ≤ m) (h2 : (m : ℝ) ≤ 10 ^ 17) :
    ∃ f : ℤ, axisUnit x = .ok f ∧ (f ∈ [-15, -12, -9, -6, -3, 0, 3, 6, 9, 12]) ∧
      ∀ v ∈ x, ((v : ℝ) * 10 ^ (-f)) * 10 ^ f = v := by
  obtain ⟨f, hf, f1, f2, f3⟩ := axisUnit_ok hm h1 h2
  refine ⟨f, hf, by simp; omega, fun v _ => ?_⟩
  rw [mul_assoc, ← zpow_add₀ (by norm_num)]; simp

example : ∃ f : ℤ, axisUnit [1500 / 10 ^ 9, 1600 / 10 ^ 9] = .ok f ∧ (f ∈ [-15, -12, -9, -6, -3, 0, 3, 6, 9, 12]) ∧
    ∀ v ∈ ([1500 / 10 ^ 9, 1600 / 10 ^ 9] : List ℚ), ((v : ℝ) * 10 ^ (-f)) * 10 ^ f = v :=
  C59_axis (m := 1600 / 10 ^ 9) (by decide +kernel) (by norm_num) (by norm_num)

/-- Whole results in the time domain: every curve is labelled by the wavelength, detector and batch it shows, and all are shown.
Missing for the full property: networks with detectors inside subnetworks, and data of which only some
wavelengths or detectors have been selected. -/
theorem C59_time_partial {cs : List PlotComp} {t wl : List ℚ} {B : ℕ} {m : ℚ} (hf : Flat cs) (hpos : ∀ x ∈ wl, 0 ≤ x)
    (hT : 2 ≤ t.length) (hW : wl ≠ []) (hD : numDetectors cs ≠ 0) (hB : B ≠ 0) (hm : t.max? = some m)
    (h1 : (10 : ℝ) ^ (-13 : ℤ) ≤ m) (h2 : (m : ℝ) ≤ 10 ^ 17) (v : ℕ → ℕ → ℕ → ℕ → α) :
    ∃ fig, plot cs t wl (result t.length wl.length (numDetectors cs) B v) = .ok fig ∧ fig.timeAxis = true ∧
      fig.x = t.map (fun x => (x : ℝ) * 10 ^ (-fig.exponent)) ∧
      LabelsFit (Names cs wl false B) wl.length (numDetectors cs) B
        (fun w d b => (List.range t.length).map fun i => v i w d b) fig.curves := by
  obtain ⟨f, hu, -⟩ := axisUnit_ok hm h1 h2
  obtain ⟨c, hc, hfit⟩ := time_fit hf hpos hT hW hD hB v
  have hT1 : t.length ≠ 1 := by omega
  exact ⟨_, plot_time (by simp [Arr.squeeze, result, hT1]; rfl) rfl hT (by simpa [result] using hT1) hu hc, rfl, rfl, hfit⟩

/-- The same for results without batch axis (and without detector axis, for a single detector). -/
theorem C59_nobatch_partial {cs : List PlotComp} {t wl : List ℚ} {m : ℚ} (hf : Flat cs) (hpos : ∀ x ∈ wl, 0 ≤ x)
    (hT : 2 ≤ t.length) (hW : wl ≠ []) (hD : numDetectors cs ≠ 0) (hm : t.max? = some m)
    (h1 : (10 : ℝ) ^ (-13 : ℤ) ≤ m) (h2 : (m : ℝ) ≤ 10 ^ 17) (v : ℕ → ℕ → ℕ → α) :
    ∃ fig, plot cs t wl ⟨[t.length, wl.length, numDetectors cs], fun i => v (i.getD 0 0) (i.getD 1 0) (i.getD 2 0)⟩ =
        .ok fig ∧ fig.timeAxis = true ∧
      LabelsFit (Names cs wl false 1) wl.length (numDetectors cs) 1
        (fun w d _ => (List.range t.length).map fun i => v i w d) fig.curves := by
  obtain ⟨fig, h, ht, -, hl⟩ := C59_time_partial hf hpos hT hW hD one_ne_zero hm h1 h2 (fun i w d _ => v i w d)
  refine ⟨fig, ?_, ht, hl⟩
  rw [← h]
  have hT1 : t.length ≠ 1 := by omega
  refine plot_eq ?_ (by simp) (by simp [result, hT1])
  by_cases a : wl.length = 1 <;> by_cases b : numDetectors cs = 1 <;>
    simp [Arr.squeeze, result, hT1, Arr.unsqueeze, a, b]

/-- Whole results in the frequency domain, plotted over the wavelength. -/
theorem C59_freq_partial {cs : List PlotComp} {t wl : List ℚ} {B : ℕ} {m : ℚ} (hf : Flat cs)
    (ht : t.length = 1) (hW : 2 ≤ wl.length) (hD : numDetectors cs ≠ 0) (hB : B ≠ 0) (hm : wl.max? = some m)
    (h1 : (10 : ℝ) ^ (-13 : ℤ) ≤ m) (h2 : (m : ℝ) ≤ 10 ^ 17) (v : ℕ → ℕ → ℕ → ℕ → α) :
    ∃ fig, plot cs t wl (result t.length wl.length (numDetectors cs) B v) = .ok fig ∧ fig.timeAxis = false ∧
      fig.x = wl.map (fun x => (x : ℝ) * 10 ^ (-fig.exponent)) ∧
      LabelsFit (Names cs wl true B) 1 (numDetectors cs) B
        (fun _ d b => (List.range wl.length).map fun w => v 0 w d b) fig.curves := by
  obtain ⟨f, hu, -⟩ := axisUnit_ok hm h1 h2
  obtain ⟨c, hc, hfit⟩ := wl_fit hf hW hD hB v
  have hW1 : wl.length ≠ 1 := by omega
  rw [ht]
  exact ⟨_, plot_wl (n := wl.length) (by simp [Arr.squeeze, result, hW1]; rfl) (by omega) rfl (by simpa [result] using hW1) hu hc,
    rfl, rfl, hfit⟩

theorem names_known {cs : List PlotComp} {wl : List ℚ} {B w₀ d b : ℕ} {x : ℚ} {l : List LabelPart} (hx : wl[w₀]? = some x)
    (h : Names cs [x] false B 0 d b l) : Names cs wl true B w₀ d b l := by
  refine ⟨fun p hp => ?_, by simp, h.2.2⟩
  have := h.1 p hp
  cases p with
  | batch i => exact this
  | nm n =>
    obtain ⟨z, hz, h'⟩ := this
    obtain rfl : x = z := by simpa using hz
    exact ⟨x, hx, h'⟩
  | det s => exact this

theorem curvesTime_single {cs : List PlotComp} {wl : List ℚ} {nt : ℕ} {y : Arr α} {x : ℚ} (T D B : ℕ)
    (hy : y.shape = [T, D, B].filter fun n => n ≠ 1) (hT : T ≠ 1) (hDW : D ≠ wl.length)
    (hBW : D = 1 → B ≠ wl.length) : curvesTime cs nt wl y = curvesTime cs nt [x] y := by
  unfold curvesTime
  by_cases hD : D = 1 <;> by_cases hB : B = 1
  · simp [hy, hT, hD, hB]
  · simp [hy, hT, hD, hB, hBW hD]
  · simp [hy, hT, hD, hB, hDW]
  · simp [hy, hT, hD, hB, hDW]

/-- Data at one wavelength `w₀` of an environment with a different number of wavelengths than detectors (and than
batches, if there is one detector). -/
theorem C59_selected_partial {cs : List PlotComp} {t wl : List ℚ} {B w₀ : ℕ} {m : ℚ} (hf : Flat cs) (hpos : ∀ x ∈ wl, 0 ≤ x)
    (hT : 2 ≤ t.length) (hw : w₀ < wl.length) (hD : numDetectors cs ≠ 0) (hB : B ≠ 0) (hm : t.max? = some m)
    (h1 : (10 : ℝ) ^ (-13 : ℤ) ≤ m) (h2 : (m : ℝ) ≤ 10 ^ 17) (hDW : numDetectors cs ≠ wl.length)
    (hBW : numDetectors cs = 1 → B ≠ wl.length) (v : ℕ → ℕ → ℕ → α) :
    ∃ fig, plot cs t wl ⟨[t.length, numDetectors cs, B], fun i => v (i.getD 0 0) (i.getD 1 0) (i.getD 2 0)⟩ = .ok fig ∧
      fig.timeAxis = true ∧
      LabelsFit (fun _ => Names cs wl true B w₀) 1 (numDetectors cs) B
        (fun _ d b => (List.range t.length).map fun i => v i d b) fig.curves := by
  obtain ⟨f, hu, -⟩ := axisUnit_ok hm h1 h2
  have hT1 : t.length ≠ 1 := by omega
  have hx : wl[w₀]? = some wl[w₀] := by simp [hw]
  obtain ⟨c, hc, hfit⟩ := time_fit (T := t.length) (wl := [wl[w₀]]) hf (by simpa using hpos _ (List.getElem_mem hw)) hT (by simp) hD hB
    (fun i _ d b => v i d b)
  have hsq : (⟨[t.length, numDetectors cs, B], fun i => v (i.getD 0 0) (i.getD 1 0) (i.getD 2 0)⟩ : Arr α).squeeze =
      (result t.length [wl[w₀]].length (numDetectors cs) B fun i _ d b => v i d b).squeeze := by
    by_cases b : numDetectors cs = 1 <;> simp [Arr.squeeze, result, hT1, Arr.unsqueeze, b]
  refine ⟨_, plot_time (c := c) (by simp [Arr.squeeze, hT1]; rfl) rfl hT (by simpa using hT1) hu ?_, rfl, ?_⟩
  · rw [curvesTime_single t.length (numDetectors cs) B (x := wl[w₀]) rfl hT1 hDW hBW, hsq]; exact hc
  · constructor
    · intro k hk
      obtain ⟨w, hw', d, hd, b, hb, h, h'⟩ := hfit.1 k hk
      obtain rfl : w = 0 := by simpa using hw'
      exact ⟨0, by simp, d, hd, b, hb, h, names_known hx h'⟩
    · intro w hw' d hd b hb
      obtain rfl : w = 0 := by omega
      obtain ⟨k, hk, h, h'⟩ := hfit.2 0 (by simp) d hd b hb
      exact ⟨k, hk, h, names_known hx h'⟩

/-- Data at one wavelength of an environment with as many wavelengths as the network has detectors: they are plotted, and
no label mentions a detector. -/
theorem C59_violation {cs : List PlotComp} {t wl : List ℚ} {B : ℕ} {m : ℚ}
    (hT : 2 ≤ t.length) (hD : 2 ≤ numDetectors cs) (hB : 2 ≤ B) (hBD : B ≠ numDetectors cs) (hm : t.max? = some m)
    (h1 : (10 : ℝ) ^ (-13 : ℤ) ≤ m) (h2 : (m : ℝ) ≤ 10 ^ 17) (hDW : wl.length = numDetectors cs)
    (v : ℕ → ℕ → ℕ → α) (values : ℕ → ℕ → ℕ → List α) (w₀ : ℕ) :
    ∃ fig, plot cs t wl ⟨[t.length, numDetectors cs, B], fun i => v (i.getD 0 0) (i.getD 1 0) (i.getD 2 0)⟩ = .ok fig ∧
      fig.timeAxis = true ∧
      ¬ LabelsFit (fun _ => Names cs wl true B w₀) 1 (numDetectors cs) B values fig.curves := by
  obtain ⟨f, hu, -⟩ := axisUnit_ok hm h1 h2
  have hT1 : t.length ≠ 1 := by omega
  have hD1 : numDetectors cs ≠ 1 := by omega
  have hB1 : B ≠ 1 := by omega
  have hsh : (⟨[t.length, numDetectors cs, B], fun i => v (i.getD 0 0) (i.getD 1 0) (i.getD 2 0)⟩ : Arr α).squeeze.shape =
      [t.length, numDetectors cs, B] := by simp [Arr.squeeze, hT1, hD1, hB1]
  have hc : ∃ c, curvesTime cs t.length wl (⟨[t.length, numDetectors cs, B],
      fun i => v (i.getD 0 0) (i.getD 1 0) (i.getD 2 0)⟩ : Arr α).squeeze = .ok c ∧
      ∀ k ∈ c, ∀ s, LabelPart.det s ∉ k.label.getD [] := by
    rw [curvesTime, hsh]
    simp only [hDW, true_and]
    rw [if_neg hBD, if_pos hBD, curvesFlat_eq _ t.length [B, numDetectors cs] (by simp only [Arr.transpose, hsh]; rfl) (by omega)]
    refine ⟨_, rfl, fun k hk s => ?_⟩
    obtain ⟨j, -, rfl⟩ := List.mem_map.1 hk
    cases hl : (batchTimes B (wlLabels wl))[j]? with
    | none => simp [hl]
    | some l =>
      have hl := List.mem_of_getElem? hl
      simp only [batchTimes, wlLabels, List.mem_flatMap, List.mem_map] at hl
      obtain ⟨i, -, x, ⟨z, -, rfl⟩, rfl⟩ := hl
      simp_all
  obtain ⟨c, hc, hno⟩ := hc
  refine ⟨_, plot_time hsh rfl hT (by simpa using hT1) hu hc, rfl, fun hfit => ?_⟩
  obtain ⟨k, hk, -, hn⟩ := hfit.2 0 (by simp) 0 (by omega) 0 (by omega)
  obtain ⟨s, hs⟩ := hn.2.2.1 (by rw [owners_length]; exact hD1)
  exact hno k hk s hs

/-- Two detectors, two wavelengths, three batches. -/
def exPlotComps : List PlotComp := [⟨['s'], false, 0⟩, ⟨['d', '0'], true, 1⟩, ⟨['d', '1'], true, 1⟩]

example : ∃ fig, plot exPlotComps [0, 1] [1500 / 10 ^ 9, 1600 / 10 ^ 9]
      ⟨[2, 2, 3], fun i => 100 * i.getD 0 0 + 10 * i.getD 1 0 + i.getD 2 0⟩ = .ok fig ∧ fig.timeAxis = true ∧
      ¬ LabelsFit (fun _ => Names exPlotComps [1500 / 10 ^ 9, 1600 / 10 ^ 9] true 3 1) 1 2 3
        (fun _ d b => (List.range 2).map fun i => 100 * i + 10 * d + b) fig.curves :=
  C59_violation (cs := exPlotComps) (t := [0, 1]) (B := 3) (m := 1) (by simp) (by decide) (by simp) (by decide) (by decide +kernel)
    (by norm_num) (by norm_num) rfl (fun t d b => 100 * t + 10 * d + b) _ 1

example : ∃ fig, plot exPlotComps [0, 1] [1500 / 10 ^ 9, 1600 / 10 ^ 9]
      (result 2 2 2 3 fun t w d b => 1000 * t + 100 * w + 10 * d + b) = .ok fig ∧ fig.timeAxis = true ∧
      fig.x = ([0, 1] : List ℚ).map (fun x => (x : ℝ) * 10 ^ (-fig.exponent)) ∧
      LabelsFit (Names exPlotComps [1500 / 10 ^ 9, 1600 / 10 ^ 9] false 3) 2 2 3
        (fun w d b => (List.range 2).map fun i => 1000 * i + 100 * w + 10 * d + b) fig.curves :=
  C59_time_partial (cs := exPlotComps) (t := [0, 1]) (B := 3) (m := 1) (by simp [Flat, exPlotComps])
    (by intro x hx; simp at hx; rcases hx with rfl | rfl <;> norm_num) (by simp) (by simp) (by decide) (by simp)
    (by decide +kernel) (by norm_num) (by norm_num) _

example : ∃ fig, plot exPlotComps [0] [1500 / 10 ^ 9, 1600 / 10 ^ 9]
      (result 1 2 2 3 fun t w d b => 1000 * t + 100 * w + 10 * d + b) = .ok fig ∧ fig.timeAxis = false ∧
      fig.x = ([1500 / 10 ^ 9, 1600 / 10 ^ 9] : List ℚ).map (fun x => (x : ℝ) * 10 ^ (-fig.exponent)) ∧
      LabelsFit (Names exPlotComps [1500 / 10 ^ 9, 1600 / 10 ^ 9] true 3) 1 2 3
        (fun _ d b => (List.range 2).map fun w => 1000 * 0 + 100 * w + 10 * d + b) fig.curves :=
  C59_freq_partial (cs := exPlotComps) (t := [0]) (B := 3) (m := 1600 / 10 ^ 9) (by simp [Flat, exPlotComps])
    rfl (by simp) (by decide) (by simp)
    (by decide +kernel) (by norm_num) (by norm_num) _

example : ∃ fig, plot exPlotComps [0, 1] [1500 / 10 ^ 9, 1600 / 10 ^ 9, 1700 / 10 ^ 9]
      ⟨[2, 2, 3], fun i => 100 * i.getD 0 0 + 10 * i.getD 1 0 + i.getD 2 0⟩ = .ok fig ∧ fig.timeAxis = true ∧
      LabelsFit (fun _ => Names exPlotComps [1500 / 10 ^ 9, 1600 / 10 ^ 9, 1700 / 10 ^ 9] true 3 1) 1 2 3
        (fun _ d b => (List.range 2).map fun i => 100 * i + 10 * d + b) fig.curves :=
  C59_selected_partial (cs := exPlotComps) (t := [0, 1]) (B := 3) (m := 1) (by simp [Flat, exPlotComps])
    (by intro x hx; simp at hx; rcases hx with rfl | rfl | rfl <;> norm_num) (by simp) (by simp) (by decide) (by simp)
    (by decide +kernel) (by norm_num) (by norm_num) (by decide) (by decide) (fun t d b => 100 * t + 10 * d + b)

/-- A network with a detector and a subnetwork that contains another one. -/
def exNestedComps : List PlotComp := [⟨['d'], true, 1⟩, ⟨['n'], false, 1⟩]

/-- A detector inside a subnetwork has no label, and shifts the labels of the other curves: the second curve shows the
detector inside at the first wavelength, and is labelled by the other detector and the other wavelength. -/
theorem C59_nested_violation : ∃ fig, plot exNestedComps [0, 1] [1500 / 10 ^ 9, 1600 / 10 ^ 9]
      (result 2 2 2 1 fun t w d _ => 100 * t + 10 * w + d) = .ok fig ∧
      (fig.curves[1]?).map (fun c => (c.label, c.y)) = some (some [.nm 1600, .det ['d']],
        (List.range 2).map fun t => 100 * t + 10 * 0 + 1) ∧
      ¬ LabelsFit (Names exNestedComps [1500 / 10 ^ 9, 1600 / 10 ^ 9] false 1) 2 2 1
        (fun w d _ => (List.range 2).map fun t => 100 * t + 10 * w + d) fig.curves := by
  obtain ⟨f, hu, -⟩ := axisUnit_ok (x := [0, 1]) (m := 1) (by decide +kernel) (by norm_num) (by norm_num)
  have hc : curvesTime exNestedComps ([0, 1] : List ℚ).length [1500 / 10 ^ 9, 1600 / 10 ^ 9]
      (result 2 2 2 1 fun t w d _ => 100 * t + 10 * w + d).squeeze =
      .ok [⟨some [.nm 1500, .det ['d']], [0, 100]⟩, ⟨some [.nm 1600, .det ['d']], [1, 101]⟩, ⟨none, [10, 110]⟩, ⟨none, [11, 111]⟩] := by
    have e : ∀ y : Arr ℕ, curvesTime exNestedComps ([0, 1] : List ℚ).length [1500 / 10 ^ 9, 1600 / 10 ^ 9] y =
      curvesTime exNestedComps 2 [1500 / 10 ^ 9, 1600 / 10 ^ 9] y := fun _ => rfl
    have hw : wlLabels [1500 / 10 ^ 9, 1600 / 10 ^ 9] = [.nm 1500, .nm 1600] := by decide +kernel
    have hs : (result 2 2 2 1 fun t w d (_ : ℕ) => 100 * t + 10 * w + d).squeeze.shape = [2, 2, 2] := by decide
    rw [e, curvesTime, hs]
    simp only [hw]
    rw [if_pos (by decide), curvesFlat_eq _ 2 [2, 2] hs (by norm_num)]
    rfl
  refine ⟨_, plot_time (n := 2) (s := [2, 2]) (by decide) rfl (by simp) (by simp [result]) hu hc, rfl, fun hfit => ?_⟩
  obtain ⟨k, hk, hy, hn⟩ := hfit.2 0 (by simp) 1 (by simp) 0 (by simp)
  simp only [List.mem_cons, List.not_mem_nil, or_false] at hk
  rcases hk with rfl | rfl | rfl | rfl
  · simp [List.range_succ] at hy
  · have h := hn.1 (.det ['d']) (by simp)
    simp [Right, owners, exNestedComps] at h
  · simp [List.range_succ] at hy
  · simp [List.range_succ] at hy

/-- Wavelengths that differ by less than a nanometer get the same label. -/
theorem C59_wavelength_violation : ∃ fig, plot exPlotComps [0, 1] [15501 / 10 ^ 10, 15509 / 10 ^ 10]
      (result 2 2 2 1 fun t w d _ => 100 * t + 10 * w + d) = .ok fig ∧
      (fig.curves[0]?).map (fun c => c.label) = (fig.curves[2]?).map (fun c => c.label) ∧
      (fig.curves[0]?).map (fun c => c.y) = some ((List.range 2).map fun t => 100 * t + 10 * 0 + 0) ∧
      (fig.curves[2]?).map (fun c => c.y) = some ((List.range 2).map fun t => 100 * t + 10 * 1 + 0) := by
  obtain ⟨f, hu, -⟩ := axisUnit_ok (x := [0, 1]) (m := 1) (by decide +kernel) (by norm_num) (by norm_num)
  have hc : curvesTime exPlotComps ([0, 1] : List ℚ).length [15501 / 10 ^ 10, 15509 / 10 ^ 10]
      (result 2 2 2 1 fun t w d _ => 100 * t + 10 * w + d).squeeze =
      .ok [⟨some [.nm 1550, .det ['d', '0']], [0, 100]⟩, ⟨some [.nm 1550, .det ['d', '1']], [1, 101]⟩,
        ⟨some [.nm 1550, .det ['d', '0']], [10, 110]⟩, ⟨some [.nm 1550, .det ['d', '1']], [11, 111]⟩] := by
    have e : ∀ y : Arr ℕ, curvesTime exPlotComps ([0, 1] : List ℚ).length [15501 / 10 ^ 10, 15509 / 10 ^ 10] y =
      curvesTime exPlotComps 2 [15501 / 10 ^ 10, 15509 / 10 ^ 10] y := fun _ => rfl
    have hw : wlLabels [15501 / 10 ^ 10, 15509 / 10 ^ 10] = [.nm 1550, .nm 1550] := by decide +kernel
    have hs : (result 2 2 2 1 fun t w d (_ : ℕ) => 100 * t + 10 * w + d).squeeze.shape = [2, 2, 2] := by decide
    rw [e, curvesTime, hs]
    simp only [hw]
    rw [if_pos (by decide), curvesFlat_eq _ 2 [2, 2] hs (by norm_num)]
    rfl
  exact ⟨_, plot_time (n := 2) (s := [2, 2]) (by decide) rfl (by simp) (by simp [result]) hu hc, rfl, rfl, rfl⟩

end PT
