import Verif.Props.Filters
import Verif.Props.Loss

/-!
# C93: the interferometer of the example notebook `09_XOR_task_with_MZI`
-/

namespace PT.Spec

/-- Two couplers with two waveguides between them. -/
noncomputable def interferometerModules (k1 k2 : ℝ) (z1 z2 : Wg) : List (Str × Part) :=
  [("src".toList, .source), ("det".toList, .detector), ("trm1".toList, .term), ("trm2".toList, .term),
    ("dc1".toList, .coupler k1), ("dc2".toList, .coupler k2), ("wg1".toList, z1.part), ("wg2".toList, z2.part)]

/-- Its links. -/
def interferometerLinks : List (List LinkArg) :=
  [[.str "trm1:0".toList, .str "3:dc1:2".toList, .str "0:wg1:1".toList, .str "3:dc2:2".toList, .str "0:trm2".toList],
    [.str "src:0".toList, .str "0:dc1:1".toList, .str "0:wg2:1".toList, .str "0:dc2:1".toList, .str "0:det".toList]]

/-- Bits as an array of numbers. -/
def bitRows {ι : Type} (bits : List (ι → Bool)) : List (ι → ℝ) := bits.map fun r i => if r i then 1 else 0

/-- Each bit compared with the one before it (the first one with 0), as `XOR` in the notebook. -/
def xorPrevious {ι : Type} (bits : List (ι → Bool)) : List (ι → Bool) :=
  List.zipWith (fun r r' i => xor (r i) (r' i)) bits ((fun _ => false) :: bits)

/-- The interferometer of the notebook, with the length `L` that light travels during a bit and with couplers that split evenly. -/
noncomputable def xorModules (L neff wl0 ng φ1 φ2 : ℝ) : List (Str × Part) :=
  interferometerModules (1 / 2) (1 / 2) ⟨2 * L, 0, neff, wl0, ng, φ1⟩ ⟨L, 0, neff, wl0, ng, φ2⟩

end PT.Spec

namespace PT
open Spec Matrix

variable {W B : Type}

def interferometerConns : List Conn :=
  [.inner "trm1".toList 0 "dc1".toList 3, .inner "dc1".toList 2 "wg1".toList 0, .inner "wg1".toList 1 "dc2".toList 3,
    .inner "dc2".toList 2 "trm2".toList 0, .inner "src".toList 0 "dc1".toList 0, .inner "dc1".toList 1 "wg2".toList 0,
    .inner "wg2".toList 1 "dc2".toList 0, .inner "dc2".toList 1 "det".toList 0]

theorem interferometer_conns : (∀ l ∈ interferometerLinks, (linkConns l).2 = .ok ()) ∧
    (interferometerLinks.flatMap fun l => (linkConns l).1) = interferometerConns.map Conn.text := by
  decide +kernel

noncomputable def interferometerParts (k1 k2 : ℝ) (z1 z2 : Wg) : List Part :=
  [.term, .coupler k1, z1.part, .coupler k2, .term, .source, z2.part, .detector]

def interferometerPairs : List (ℕ × ℕ) := [(0, 4), (3, 5), (6, 10), (9, 11), (12, 1), (2, 13), (14, 7), (8, 15)]

theorem interferometer_wired (k1 k2 : ℝ) (z1 z2 : Wg) :
    ∃ d, LinkedNet (interferometerModules k1 k2 z1 z2) interferometerLinks d ∧
      MadeOf (fun _ => True) d ∧ Wired d (interferometerParts k1 k2 z1 z2) interferometerPairs := by
  obtain ⟨d, h1, h2, h3⟩ := wired_net (interferometerModules k1 k2 z1 z2)
    [("trm1".toList, .term), ("dc1".toList, .coupler k1), ("wg1".toList, z1.part), ("dc2".toList, .coupler k2),
      ("trm2".toList, .term), ("src".toList, .source), ("wg2".toList, z2.part), ("det".toList, .detector)]
    interferometerConns
    [("src".toList, source), ("det".toList, detector), ("trm1".toList, term), ("trm2".toList, term),
      ("dc1".toList, passive 4), ("dc2".toList, passive 4), ("wg1".toList, passive 2), ("wg2".toList, passive 2)]
    [("trm1".toList, term), ("dc1".toList, passive 4), ("wg1".toList, passive 2), ("dc2".toList, passive 4),
      ("trm2".toList, term), ("src".toList, source), ("wg2".toList, passive 2), ("det".toList, detector)]
    interferometerPairs rfl rfl (by
      intro p hp
      simp only [interferometerModules, List.mem_cons, List.not_mem_nil, or_false] at hp
      rcases hp with rfl | rfl | rfl | rfl | rfl | rfl | rfl | rfl
      · exact Nat.one_pos
      · exact Nat.one_pos
      · exact Nat.one_pos
      · exact Nat.one_pos
      · exact (by decide : 0 < 4)
      · exact (by decide : 0 < 4)
      · exact Nat.two_pos
      · exact Nat.two_pos) (goodConns_dec (by decide +kernel)) ⟨by decide +kernel, by decide +kernel⟩
    ⟨by decide +kernel, by decide +kernel, by decide +kernel⟩ (by
      have h : usedNames ((interferometerConns.map Conn.text).map stripConn) =
          ["trm1".toList, "dc1".toList, "wg1".toList, "dc2".toList, "trm2".toList, "src".toList, "wg2".toList,
            "det".toList] := by decide +kernel
      rw [h]
      rfl) (by decide +kernel)
  exact ⟨d, ⟨interferometer_conns.1, by rw [interferometer_conns.2]; exact h1⟩, h2, h3⟩

theorem interferometer_marks {k1 k2 : ℝ} {z1 z2 : Wg} {d : Dev}
    (h : Wired d (interferometerParts k1 k2 z1 z2) interferometerPairs) :
    (portsWith fun i : Fin d.comp.n => d.comp.src.getD i false).map Fin.val = [12] ∧
    (portsWith fun i : Fin d.comp.n => d.comp.det.getD i false).map Fin.val = [15] :=
  ⟨portsWith_vals _ 16 _ [false, false, false, false, false, false, false, false, false, false, false, false, true, false, false, false]
      _ h.flat.n h.flat.src rfl,
    portsWith_vals _ 16 _ [false, false, false, false, false, false, false, false, false, false, false, false, false, false, false, true]
      _ h.flat.n h.flat.det rfl⟩

theorem term_entry (wl : ℝ) (i j : ℕ) : Part.term.dev.entry wl i j = 0 := by
  have h0 : ∀ i j, ofFin (0 : Matrix (Fin 1) (Fin 1) ℝ) i j = 0 := by
    intro i j
    unfold ofFin
    split <;> rfl
  apply Complex.ext <;> exact h0 i j

theorem not_remembers_term (env : SimEnv) (v : ℝ) : ¬Remembers env v .term := by
  rintro (h | h | ⟨-, dt, -, h⟩)
  · cases h
  · cases h
  · have : roundSteps (Part.delay v .term / dt) = 0 := by
      show roundSteps (0 / dt) = 0
      rw [zero_div]
      unfold roundSteps
      norm_num
    omega

theorem interferometer_init {k1 k2 : ℝ} {z1 z2 : Wg} {d : Dev} (h : Wired d (interferometerParts k1 k2 z1 z2) interferometerPairs)
    (v : ℝ) (wl : W → ℝ) (env : SimEnv) : ∃ r, initNet (d.plant v wl) env = .ok (some r) := by
  refine h.init v wl env (i₀ := 12) (k₀ := 5) (p₀ := .source) (i₀' := 0) rfl (.inl rfl) fun w U Y hout hl hr hin => ?_
  have hc1 := not_remembers_coupler env v k1
  have hc2 := not_remembers_coupler env v k2
  have ht := not_remembers_term env v
  obtain ⟨u12, y12⟩ := hout (i := 12) (k := 5) (p := .source) (i' := 0) rfl (.inl rfl)
  obtain ⟨u15, y15⟩ := hout (i := 15) (k := 7) (p := .detector) (i' := 0) rfl (.inr (.inl rfl))
  have y0 := hin (i := 0) (k := 0) (p := .term) (i' := 0) rfl ht
  have y11 := hin (i := 11) (k := 4) (p := .term) (i' := 0) rfl ht
  rw [Finset.sum_eq_zero fun q _ => by rw [term_entry, zero_mul]] at y0 y11
  have l0 := hl (0, 4) (by simp [interferometerPairs]) (k := 0) (p := .term) (i' := 0) rfl ht
  have l4 := hr (0, 4) (by simp [interferometerPairs]) (k := 1) (p := .coupler k1) (i' := 3) rfl hc1
  have l11 := hr (9, 11) (by simp [interferometerPairs]) (k := 4) (p := .term) (i' := 0) rfl ht
  have l9 := hl (9, 11) (by simp [interferometerPairs]) (k := 3) (p := .coupler k2) (i' := 2) rfl hc2
  have l1 := hr (12, 1) (by simp [interferometerPairs]) (k := 1) (p := .coupler k1) (i' := 0) rfl hc1
  have l2 := hl (2, 13) (by simp [interferometerPairs]) (k := 1) (p := .coupler k1) (i' := 1) rfl hc1
  have l3 := hl (3, 5) (by simp [interferometerPairs]) (k := 1) (p := .coupler k1) (i' := 2) rfl hc1
  have l10 := hr (6, 10) (by simp [interferometerPairs]) (k := 3) (p := .coupler k2) (i' := 3) rfl hc2
  have l7 := hr (14, 7) (by simp [interferometerPairs]) (k := 3) (p := .coupler k2) (i' := 0) rfl hc2
  have l8 := hl (8, 15) (by simp [interferometerPairs]) (k := 3) (p := .coupler k2) (i' := 1) rfl hc2
  have y1 := hin (i := 1) (k := 1) (p := .coupler k1) (i' := 0) rfl hc1
  have y2 := hin (i := 2) (k := 1) (p := .coupler k1) (i' := 1) rfl hc1
  have y3 := hin (i := 3) (k := 1) (p := .coupler k1) (i' := 2) rfl hc1
  have y4 := hin (i := 4) (k := 1) (p := .coupler k1) (i' := 3) rfl hc1
  have y7 := hin (i := 7) (k := 3) (p := .coupler k2) (i' := 0) rfl hc2
  have y8 := hin (i := 8) (k := 3) (p := .coupler k2) (i' := 1) rfl hc2
  have y9 := hin (i := 9) (k := 3) (p := .coupler k2) (i' := 2) rfl hc2
  have y10 := hin (i := 10) (k := 3) (p := .coupler k2) (i' := 3) rfl hc2
  rw [(coupler_sum k1 (wl w) fun q => U (1 - 0 + q)).1] at y1
  rw [(coupler_sum k1 (wl w) fun q => U (2 - 1 + q)).2.1] at y2
  rw [(coupler_sum k1 (wl w) fun q => U (3 - 2 + q)).2.2.1] at y3
  rw [(coupler_sum k1 (wl w) fun q => U (4 - 3 + q)).2.2.2] at y4
  rw [(coupler_sum k2 (wl w) fun q => U (7 - 0 + q)).1] at y7
  rw [(coupler_sum k2 (wl w) fun q => U (8 - 1 + q)).2.1] at y8
  rw [(coupler_sum k2 (wl w) fun q => U (9 - 2 + q)).2.2.1] at y9
  rw [(coupler_sum k2 (wl w) fun q => U (10 - 3 + q)).2.2.2] at y10
  norm_num at y1 y2 y3 y4 y7 y8 y9 y10
  simp only at l0 l4 l11 l9 l1 l2 l3 l10 l7 l8
  have u1 : U 1 = 0 := l1.trans y12
  have u4 : U 4 = 0 := l4.trans y0
  have u8 : U 8 = 0 := l8.trans y15
  have u9 : U 9 = 0 := l9.trans y11
  have v2 : Y 2 = 0 := by rw [y2, u1, u4]; ring
  have v3 : Y 3 = 0 := by rw [y3, u1, u4]; ring
  have v7 : Y 7 = 0 := by rw [y7, u8, u9]; ring
  have v10 : Y 10 = 0 := by rw [y10, u8, u9]; ring
  have h1 : U 5 = 0 ∧ U 6 = 0 ∧ Y 5 = 0 ∧ Y 6 = 0 := by
    by_cases hz : Remembers env v z1.part
    · have a := hout (i := 5) (k := 2) (p := z1.part) (i' := 0) rfl hz
      have b := hout (i := 6) (k := 2) (p := z1.part) (i' := 1) rfl hz
      exact ⟨a.1, b.1, a.2, b.2⟩
    · have a := hin (i := 5) (k := 2) (p := z1.part) (i' := 0) rfl hz
      have b := hin (i := 6) (k := 2) (p := z1.part) (i' := 1) rfl hz
      rw [(wg_sum z1 (wl w) fun q => U (5 - 0 + q)).1] at a
      rw [(wg_sum z1 (wl w) fun q => U (6 - 1 + q)).2] at b
      have c := hr (3, 5) (by simp [interferometerPairs]) (k := 2) (p := z1.part) (i' := 0) rfl hz
      have e := hl (6, 10) (by simp [interferometerPairs]) (k := 2) (p := z1.part) (i' := 1) rfl hz
      norm_num at a b
      simp only at c e
      have u5 : U 5 = 0 := c.trans v3
      have u6 : U 6 = 0 := e.trans v10
      exact ⟨u5, u6, by rw [a, u6, mul_zero], by rw [b, u5, mul_zero]⟩
  have h2 : U 13 = 0 ∧ U 14 = 0 ∧ Y 13 = 0 ∧ Y 14 = 0 := by
    by_cases hz : Remembers env v z2.part
    · have a := hout (i := 13) (k := 6) (p := z2.part) (i' := 0) rfl hz
      have b := hout (i := 14) (k := 6) (p := z2.part) (i' := 1) rfl hz
      exact ⟨a.1, b.1, a.2, b.2⟩
    · have a := hin (i := 13) (k := 6) (p := z2.part) (i' := 0) rfl hz
      have b := hin (i := 14) (k := 6) (p := z2.part) (i' := 1) rfl hz
      rw [(wg_sum z2 (wl w) fun q => U (13 - 0 + q)).1] at a
      rw [(wg_sum z2 (wl w) fun q => U (14 - 1 + q)).2] at b
      have c := hr (2, 13) (by simp [interferometerPairs]) (k := 6) (p := z2.part) (i' := 0) rfl hz
      have e := hl (14, 7) (by simp [interferometerPairs]) (k := 6) (p := z2.part) (i' := 1) rfl hz
      norm_num at a b
      simp only at c e
      have u5 : U 13 = 0 := c.trans v2
      have u6 : U 14 = 0 := e.trans v7
      exact ⟨u5, u6, by rw [a, u6, mul_zero], by rw [b, u5, mul_zero]⟩
  obtain ⟨u5, u6, v5, v6⟩ := h1
  obtain ⟨u13, u14, v13, v14⟩ := h2
  have u2 : U 2 = 0 := l2.trans v13
  have u3 : U 3 = 0 := l3.trans v5
  have u10 : U 10 = 0 := l10.trans v6
  have u7 : U 7 = 0 := l7.trans v14
  have u0 : U 0 = 0 := l0.trans (by rw [y4, u2, u3]; ring)
  have u11 : U 11 = 0 := l11.trans (by rw [y9, u7, u10]; ring)
  intro i hi
  have hi' : i < 16 := hi
  interval_cases i <;> assumption

/-- C93, in the frequency domain: the two arms interfere. -/
theorem C93_frequency (k1 k2 : ℝ) (z1 z2 : Wg) :
    ∃ d, LinkedNet (interferometerModules k1 k2 z1 z2) interferometerLinks d ∧ ∀ (W B : Type) (v : ℝ) (wl : W → ℝ) (env : SimEnv),
      env.freqdomain = true → env.t.length = 1 → ∃ r, initNet (d.plant v wl) env = .ok (some r) ∧
        ∀ (cs : List (Actor W B)) (src : ℕ → ℕ → W → B → ℝ × ℝ), ∃ o, forwardReduced r env cs src = .ok [o] ∧
          ∀ w b, (o w b).map asComplex = [(√(1 - k1) * √(1 - k2) * z2.amp (wl w) - √k1 * √k2 * z1.amp (wl w)) *
            asComplex (src 0 0 w b)] := by
  obtain ⟨d, hd, hM, h⟩ := interferometer_wired k1 k2 z1 z2
  obtain ⟨m1, m2⟩ := interferometer_marks h
  refine ⟨d, hd, fun W B v wl env hf ht1 => ?_⟩
  obtain ⟨r, hr⟩ := interferometer_init h v wl env
  refine ⟨r, hr, fun cs src => ?_⟩
  obtain ⟨o, ho, H⟩ := h.freq hM v wl env hf ht1 _ _ m1 m2 (by simp) r hr cs src
  refine ⟨o, ho, fun w b => ?_⟩
  obtain ⟨A, B', hl, hb, hout⟩ := H w b
  rw [hout]
  show [A 15] = _
  congr 1
  have b0 := hb (i := 0) (k := 0) (p := .term) (i' := 0) rfl
  rw [Finset.sum_eq_zero fun q _ => by rw [term_entry, zero_mul]] at b0
  have b12 := hb (i := 12) (k := 5) (p := .source) (i' := 0) rfl
  rw [(end_sum (wl w) fun q => A (12 - 0 + q)).1] at b12
  have b2 := hb (i := 2) (k := 1) (p := .coupler k1) (i' := 1) rfl
  rw [(coupler_sum k1 (wl w) fun q => A (2 - 1 + q)).2.1] at b2
  have b3 := hb (i := 3) (k := 1) (p := .coupler k1) (i' := 2) rfl
  rw [(coupler_sum k1 (wl w) fun q => A (3 - 2 + q)).2.2.1] at b3
  have b8 := hb (i := 8) (k := 3) (p := .coupler k2) (i' := 1) rfl
  rw [(coupler_sum k2 (wl w) fun q => A (8 - 1 + q)).2.1] at b8
  have b6 := hb (i := 6) (k := 2) (p := z1.part) (i' := 1) rfl
  rw [(wg_sum z1 (wl w) fun q => A (6 - 1 + q)).2] at b6
  have b14 := hb (i := 14) (k := 6) (p := z2.part) (i' := 1) rfl
  rw [(wg_sum z2 (wl w) fun q => A (14 - 1 + q)).2] at b14
  norm_num at b0 b12 b2 b3 b8 b6 b14
  have l15 := (hl (8, 15) (by simp [interferometerPairs])).2
  have l7 := (hl (14, 7) (by simp [interferometerPairs])).2
  have l10 := (hl (6, 10) (by simp [interferometerPairs])).2
  have l13 := (hl (2, 13) (by simp [interferometerPairs])).2
  have l5 := (hl (3, 5) (by simp [interferometerPairs])).2
  have l1 := (hl (12, 1) (by simp [interferometerPairs])).2
  have l4 := (hl (0, 4) (by simp [interferometerPairs])).2
  simp only at l15 l7 l10 l13 l5 l1 l4
  rw [l15, b8, l7, b14, l13, b2, l10, b6, l5, b3, l1, l4, b12, b0]
  have hI := Complex.I_sq
  linear_combination (√k1 * √k2 * z1.amp (wl w) * asComplex (src 0 0 w b)) * hI

/-- C93, in the time domain: what is detected is what left the source one arm ago, minus what left it the other arm ago. -/
theorem C93_time (k1 k2 : ℝ) (z1 z2 : Wg) :
    ∃ d, LinkedNet (interferometerModules k1 k2 z1 z2) interferometerLinks d ∧ ∀ (W B : Type) (v : ℝ) (wl : W → ℝ) (env : SimEnv)
      (dt : ℝ), env.freqdomain = false → env.dt = some dt → 0 < dt → ∃ r, initNet (d.plant v wl) env = .ok (some r) ∧
        ∀ (cs : List (Actor W B)) (src : ℕ → ℕ → W → B → ℝ × ℝ), ∃ out, forwardReduced r env cs src = .ok out ∧
          out.length = env.t.length ∧ ∀ n (hn : n < out.length) w b, (out[n] w b).map asComplex =
            [√(1 - k1) * √(1 - k2) * z2.amp (wl w) * past (fun m => asComplex (src m 0 w b)) n (z2.steps v dt) -
              √k1 * √k2 * z1.amp (wl w) * past (fun m => asComplex (src m 0 w b)) n (z1.steps v dt)] := by
  obtain ⟨d, hd, hM, h⟩ := interferometer_wired k1 k2 z1 z2
  obtain ⟨m1, m2⟩ := interferometer_marks h
  refine ⟨d, hd, fun W B v wl env dt hf hdt hpos => ?_⟩
  obtain ⟨r, hr⟩ := interferometer_init h v wl env
  refine ⟨r, hr, fun cs src => ?_⟩
  obtain ⟨out, ho, hlen, H⟩ := h.steps hM v wl env dt hdt hpos hf _ _ m1 m2 (by simp) r hr cs src
  refine ⟨out, ho, hlen, fun n hn w b => ?_⟩
  obtain ⟨A, B', hl, hb, he, hout⟩ := H w b
  rw [hout n hn]
  show [A n 15] = _
  congr 1
  have hwg : ∀ g : Wg, ∀ q < g.part.n, g.part.comp.src.getD q false = false ∧ g.part.comp.det.getD q false = false := by
    intro g q hq
    have : q < 2 := hq
    interval_cases q <;> exact ⟨rfl, rfl⟩
  have hcp : ∀ k, ∀ q < (Part.coupler k).n, (Part.coupler k).comp.src.getD q false = false ∧ (Part.coupler k).comp.det.getD q false = false := by
    intro k q hq
    have : q < 4 := hq
    interval_cases q <;> exact ⟨rfl, rfl⟩
  have hc0 : ∀ k, roundSteps ((Part.coupler k).delay v / dt) = 0 := by
    intro k
    show roundSteps (0 / dt) = 0
    rw [zero_div]
    unfold roundSteps
    norm_num
  generalize hs : (fun m => asComplex (src m 0 w b)) = s
  have hT : ∀ m, m ≤ n → m < env.t.length := fun m hm => by omega
  have b0 : ∀ m ≤ n, B' m 0 = 0 := fun m hm => by
    have := he m (hT m hm) (i := 0) (k := 0) (p := .term) (i' := 0) rfl fun q _ => term_entry _ _ _
    rw [this]
    rfl
  have b12 : ∀ m ≤ n, B' m 12 = s m := fun m hm => by
    have := he m (hT m hm) (i := 12) (k := 5) (p := .source) (i' := 0) rfl fun q _ => end_entry.1 _ _ _
    rw [this, ← hs]
    rfl
  have b6 : ∀ m ≤ n, B' m 6 = z1.amp (wl w) * past (fun m => A m 5) m (z1.steps v dt) := fun m hm => by
    have := hb m (hT m hm) (i := 6) (k := 2) (p := z1.part) (i' := 1) rfl fun q hq => ⟨by
      have : q < 2 := hq
      interval_cases q <;> rfl, hwg z1 q hq⟩
    rw [(wg_sum z1 (wl w) _).2, wg_delay] at this
    simpa using this
  have b14 : ∀ m ≤ n, B' m 14 = z2.amp (wl w) * past (fun m => A m 13) m (z2.steps v dt) := fun m hm => by
    have := hb m (hT m hm) (i := 14) (k := 6) (p := z2.part) (i' := 1) rfl fun q hq => ⟨by
      have : q < 2 := hq
      interval_cases q <;> rfl, hwg z2 q hq⟩
    rw [(wg_sum z2 (wl w) _).2, wg_delay] at this
    simpa using this
  have b2 : ∀ m ≤ n, B' m 2 = √(1 - k1) * A m 1 + Complex.I * √k1 * A m 4 := fun m hm => by
    have := hb m (hT m hm) (i := 2) (k := 1) (p := .coupler k1) (i' := 1) rfl fun q hq => ⟨by
      have : q < 4 := hq
      interval_cases q <;> rfl, hcp k1 q hq⟩
    rw [(coupler_sum k1 (wl w) _).2.1, hc0] at this
    simpa [past_zero] using this
  have b3 : ∀ m ≤ n, B' m 3 = Complex.I * √k1 * A m 1 + √(1 - k1) * A m 4 := fun m hm => by
    have := hb m (hT m hm) (i := 3) (k := 1) (p := .coupler k1) (i' := 2) rfl fun q hq => ⟨by
      have : q < 4 := hq
      interval_cases q <;> rfl, hcp k1 q hq⟩
    rw [(coupler_sum k1 (wl w) _).2.2.1, hc0] at this
    simpa [past_zero] using this
  have b8 : ∀ m ≤ n, B' m 8 = √(1 - k2) * A m 7 + Complex.I * √k2 * A m 10 := fun m hm => by
    have := hb m (hT m hm) (i := 8) (k := 3) (p := .coupler k2) (i' := 1) rfl fun q hq => ⟨by
      have : q < 4 := hq
      interval_cases q <;> rfl, hcp k2 q hq⟩
    rw [(coupler_sum k2 (wl w) _).2.1, hc0] at this
    simpa [past_zero] using this
  have l15 : ∀ m ≤ n, A m 15 = B' m 8 := fun m hm => (hl m (hT m hm) (8, 15) (by simp [interferometerPairs])).2
  have l7 : ∀ m ≤ n, A m 7 = B' m 14 := fun m hm => (hl m (hT m hm) (14, 7) (by simp [interferometerPairs])).2
  have l10 : ∀ m ≤ n, A m 10 = B' m 6 := fun m hm => (hl m (hT m hm) (6, 10) (by simp [interferometerPairs])).2
  have l13 : ∀ m ≤ n, A m 13 = B' m 2 := fun m hm => (hl m (hT m hm) (2, 13) (by simp [interferometerPairs])).2
  have l5 : ∀ m ≤ n, A m 5 = B' m 3 := fun m hm => (hl m (hT m hm) (3, 5) (by simp [interferometerPairs])).2
  have l1 : ∀ m ≤ n, A m 1 = B' m 12 := fun m hm => (hl m (hT m hm) (12, 1) (by simp [interferometerPairs])).2
  have l4 : ∀ m ≤ n, A m 4 = B' m 0 := fun m hm => (hl m (hT m hm) (0, 4) (by simp [interferometerPairs])).2
  have a13 : ∀ m ≤ n, A m 13 = √(1 - k1) * s m := fun m hm => by
    rw [l13 m hm, b2 m hm, l1 m hm, l4 m hm, b0 m hm, b12 m hm]; ring
  have a5 : ∀ m ≤ n, A m 5 = Complex.I * √k1 * s m := fun m hm => by
    rw [l5 m hm, b3 m hm, l1 m hm, l4 m hm, b0 m hm, b12 m hm]; ring
  rw [l15 n le_rfl, b8 n le_rfl, l7 n le_rfl, b14 n le_rfl, l10 n le_rfl, b6 n le_rfl, past_congr _ a13, past_congr _ a5,
    past_mul, past_mul]
  have hI := Complex.I_sq
  linear_combination (√k1 * √k2 * z1.amp (wl w) * past s n (z1.steps v dt)) * hI

/-! ## Exclusive or -/

theorem bit_stream {ι : Type} (rng : ℕ → List (ι → ℝ)) (butter : ℚ → List ℝ × List ℝ) (x : List (ι → ℝ)) (B m : ℕ)
    (hB : 0 < B) (hm : 0 < m) : bitStream rng butter (.array x) B (m * B : ℕ) none =
      .ok (samples (x.length * m) fun j => x.getD (j / m) 0) := by
  obtain ⟨s, h, hlen, hk⟩ := C49_samples rng butter (.array x) x rfl B (m * B) hB (Nat.mul_pos hm hB)
  rw [h]
  congr 1
  have hB' : (B : ℚ) ≠ 0 := by exact_mod_cast hB.ne'
  have hl : s.length = x.length * m := by
    rw [hlen, show (x.length : ℚ) * ((m * B : ℕ) : ℚ) / B = ((x.length * m : ℕ) : ℚ) by push_cast; field_simp]
    exact Nat.ceil_natCast _
  refine List.ext_getElem? fun j => ?_
  by_cases hj : j < s.length
  · rw [hk j hj]
    have e : (j : ℚ) / ((m * B : ℕ) : ℚ) * B = (j : ℚ) / (m : ℚ) := by push_cast; field_simp
    rw [e, Nat.floor_div_eq_div]
    have hj' : j / m < x.length := by
      rw [Nat.div_lt_iff_lt_mul hm]; omega
    unfold samples
    rw [List.getElem?_map, List.getElem?_range (by omega), List.getElem?_eq_getElem hj', Option.map_some,
      List.getD_eq_getElem?_getD, List.getElem?_eq_getElem hj']
    rfl
  · rw [List.getElem?_eq_none (by omega), List.getElem?_eq_none (by simp [samples]; omega)]

theorem bitRows_getD {ι : Type} (bits : List (ι → Bool)) (k : ℕ) (i : ι) :
    (bitRows bits).getD k 0 i = if bits.getD k (fun _ => false) i then 1 else 0 := by
  unfold bitRows
  rw [List.getD_eq_getElem?_getD, List.getD_eq_getElem?_getD, List.getElem?_map]
  cases bits[k]? <;> simp

theorem xorPrevious_getD {ι : Type} (bits : List (ι → Bool)) (k : ℕ) (hk : k < bits.length) (i : ι) :
    (xorPrevious bits).getD k (fun _ => false) i =
      xor (bits.getD k (fun _ => false) i) (if k = 0 then false else bits.getD (k - 1) (fun _ => false) i) := by
  unfold xorPrevious
  rw [List.getD_eq_getElem?_getD, List.getElem?_zipWith, List.getD_eq_getElem?_getD, List.getD_eq_getElem?_getD,
    List.getElem?_eq_getElem hk]
  cases k with
  | zero => simp
  | succ k =>
    rw [List.getElem?_cons_succ, List.getElem?_eq_getElem (show k < bits.length by omega)]
    simp [List.getElem?_eq_getElem (show k < bits.length by omega)]

theorem amp_one (L neff wl0 ng wl : ℝ) : ∃ φ, Wg.amp ⟨L, 0, neff, wl0, ng, φ⟩ wl = 1 := by
  refine ⟨-(2 * Real.pi * (neff + (wl0 - wl) * (ng - neff) / wl0) * L / wl), ?_⟩
  unfold Wg.amp
  simp

theorem xor_steps (v ng B m : ℝ) (k : ℕ) (hv : 0 < v) (hng : 0 < ng) (hB : 0 < B) (M : ℕ) (hm : m = M) (hM : 0 < M)
    (neff wl0 φ : ℝ) : Wg.steps ⟨k * (v / (ng * B)), 0, neff, wl0, ng, φ⟩ v (1 / (m * B)) = k * M := by
  unfold Wg.steps
  have hm' : m ≠ 0 := by rw [hm]; exact_mod_cast hM.ne'
  have e : ng * (k * (v / (ng * B))) / v / (1 / (m * B)) = ((k * M : ℕ) : ℝ) := by
    push_cast
    rw [← hm]
    field_simp
  dsimp only
  rw [e]
  have : ⌊((k * M : ℕ) : ℝ) + 1 / 2⌋ = ((k * M : ℕ) : ℤ) := by
    rw [Int.floor_eq_iff]
    push_cast
    constructor <;> linarith
  rw [this, Int.toNat_natCast]

theorem past_of (f : ℕ → ℂ) (j m : ℕ) : past f (j + m) m = f j := by
  unfold past
  rw [if_pos (by omega), Nat.add_sub_cancel]

theorem sqrt_half : (√(1 - 1 / 2 : ℝ) : ℂ) * √(1 - 1 / 2 : ℝ) = 1 / 2 ∧ (√(1 / 2 : ℝ) : ℂ) * √(1 / 2 : ℝ) = 1 / 2 := by
  have h : (√(1 / 2 : ℝ) : ℂ) * √(1 / 2 : ℝ) = 1 / 2 := by
    rw [← Complex.ofReal_mul, Real.mul_self_sqrt (by norm_num)]
    push_cast
    rfl
  exact ⟨by norm_num at h ⊢; exact h, h⟩

theorem samples_at {α : Type} (T : ℕ) (x : ℕ → α) (n : ℕ) (h : n < (samples T x).length) : (samples T x)[n] = x n := by
  simp [samples]

theorem single_of {l : List (ℝ × ℝ)} {c : ℂ} (h : l.map asComplex = [c]) : ∃ u, l = [u] ∧ asComplex u = c := by
  match l, h with
  | [u], h => exact ⟨u, rfl, by simpa using h⟩

/-- C93, the task of the notebook: with suitable phases the interferometer whose arms delay by one and by two bits computes the
exclusive or of subsequent bits.  For all streams of bits (without low pass filter), four times the detected power is the stream of
the exclusive or, one bit later: the mean squared error at a latency of one bit is zero, and so is the fraction of wrong bits (if
each stream has a 0 in the target). -/
theorem C93_xor (v ng neff wl0 wl : ℝ) (hv : 0 < v) (hng : 0 < ng) (B m : ℕ) (hB : 0 < B) (hm : 0 < m) :
    ∃ φ1 φ2 d, LinkedNet (xorModules (v / (ng * B)) neff wl0 ng φ1 φ2) interferometerLinks d ∧
      ∀ (ι : Type) [Fintype ι] [Nonempty ι] (rng : ℕ → List (ι → ℝ)) (butter : ℚ → List ℝ × List ℝ) (bits : List (ι → Bool))
        (env : SimEnv), 2 ≤ bits.length → env.freqdomain = false → env.dt = some (1 / (m * B : ℝ)) →
        env.t.length = bits.length * m →
        ∃ r stream target, initNet (d.plant v fun _ : Unit => wl) env = .ok (some r) ∧
          bitStream rng butter (.array (bitRows bits)) B (m * B : ℕ) none = .ok stream ∧
          bitStream rng butter (.array (bitRows (xorPrevious bits))) B (m * B : ℕ) none = .ok target ∧
          ∀ cs : List (Actor Unit ι), ∃ out,
            forwardPower r env cs (fun n _ _ i => (stream.getD n 0 i, 0)) = .ok out ∧
            mseLoss (out.map fun o i => 4 * (o () i).headD 0) target 1 (0 : ℕ) B (m * B : ℕ) = .ok (some 0) ∧
            ((∀ i, ∃ r ∈ xorPrevious bits, r i = false) →
              berLoss (out.map fun o i => 4 * (o () i).headD 0) target (1 / 2) 1 (0 : ℕ) B (m * B : ℕ) = .ok (some 0)) := by
  obtain ⟨φ1, h1⟩ := amp_one (2 * (v / (ng * B))) neff wl0 ng wl
  obtain ⟨φ2, h2⟩ := amp_one (v / (ng * B)) neff wl0 ng wl
  obtain ⟨d, hd, H⟩ := C93_time (1 / 2) (1 / 2) ⟨2 * (v / (ng * B)), 0, neff, wl0, ng, φ1⟩ ⟨v / (ng * B), 0, neff, wl0, ng, φ2⟩
  refine ⟨φ1, φ2, d, hd, fun ι _ _ rng butter bits env hN hf hdt hT => ?_⟩
  have hBr : (0 : ℝ) < B := by exact_mod_cast hB
  have hmr : (0 : ℝ) < m := by exact_mod_cast hm
  obtain ⟨r, hr, H⟩ := H Unit ι v (fun _ => wl) env _ hf hdt (by positivity)
  have s2 : Wg.steps ⟨v / (ng * B), 0, neff, wl0, ng, φ2⟩ v (1 / (m * B)) = m := by
    have := xor_steps v ng B m 1 hv hng hBr m rfl hm neff wl0 φ2
    simpa using this
  have s1 : Wg.steps ⟨2 * (v / (ng * B)), 0, neff, wl0, ng, φ1⟩ v (1 / (m * B)) = 2 * m := by
    have := xor_steps v ng B m 2 hv hng hBr m rfl hm neff wl0 φ1
    simpa using this
  have hlen : (xorPrevious bits).length = bits.length := by
    unfold xorPrevious
    rw [List.length_zipWith, List.length_cons]
    omega
  refine ⟨r, _, _, hr, bit_stream rng butter _ B m hB hm, bit_stream rng butter _ B m hB hm, fun cs => ?_⟩
  have l1 : (bitRows bits).length = bits.length := List.length_map _
  have l2 : (bitRows (xorPrevious bits)).length = bits.length := (List.length_map _).trans hlen
  rw [l1, l2]
  obtain ⟨out, ho, hol, Ho⟩ := H cs fun n _ _ i =>
    ((samples (bits.length * m) fun j => (bitRows bits).getD (j / m) 0).getD n 0 i, 0)
  set T := bits.length * m with hTdef
  refine ⟨out.map fun o w b => (o w b).map fun u => u.1 ^ 2 + u.2 ^ 2, by unfold forwardPower; rw [ho]; rfl, ?_⟩
  -- the target
  set bit : ℕ → ι → Bool := fun k => bits.getD k (fun _ => false) with hbit
  let t : ℕ → ι → ℝ := fun j i => if xor (bit (j / m) i) (if j / m = 0 then false else bit (j / m - 1) i) then 1 else 0
  have ht : (samples T fun j => (bitRows (xorPrevious bits)).getD (j / m) 0) = samples T t := by
    unfold samples
    refine List.map_congr_left fun j hj => ?_
    have hj' : j / m < bits.length := by
      rw [Nat.div_lt_iff_lt_mul hm]; exact List.mem_range.mp hj
    funext i
    rw [bitRows_getD, xorPrevious_getD _ _ hj']
  -- the detected power
  let p : ℕ → ι → ℝ := fun n i => if n < m then 0 else t (n - m) i
  have hstream : ∀ n < T, ∀ i, (samples T fun j => (bitRows bits).getD (j / m) 0).getD n 0 i = if bit (n / m) i then 1 else 0 := by
    intro n hn i
    unfold samples
    rw [List.getD_eq_getElem?_getD, List.getElem?_map, List.getElem?_range hn, Option.map_some, Option.getD_some, bitRows_getD]
  have hp : ((out.map fun o w b => (o w b).map fun u => u.1 ^ 2 + u.2 ^ 2).map fun (o : Unit → ι → List ℝ) i => 4 * (o () i).headD 0) =
      samples T p := by
    rw [List.map_map]
    refine List.ext_getElem (by rw [List.length_map, hol, hT]; simp [samples]) fun n hn hn' => ?_
    rw [List.getElem_map]
    have hno : n < out.length := by rw [List.length_map] at hn; exact hn
    have hnT : n < T := by omega
    have e := fun i => Ho n hno () i
    funext i
    have e := e i
    rw [s1, s2, h1, h2, sqrt_half.1, sqrt_half.2] at e
    obtain ⟨u, hu, hu'⟩ := single_of e
    have hpast : ∀ k, past (fun q => asComplex ((samples T fun j => (bitRows bits).getD (j / m) 0).getD q 0 i, (0 : ℝ))) n k =
        if k ≤ n then ((if bit ((n - k) / m) i then 1 else 0 : ℝ) : ℂ) else 0 := by
      intro k
      unfold past
      split
      · dsimp only
        rw [hstream _ (by omega)]
        rfl
      · rfl
    rw [hpast, hpast] at hu'
    have hnorm : u.1 ^ 2 + u.2 ^ 2 = ‖asComplex u‖ ^ 2 := by
      rw [← Complex.normSq_eq_norm_sq, Complex.normSq_apply]
      show _ = u.1 * u.1 + u.2 * u.2
      ring
    show 4 * ((out[n] () i).map fun u => u.1 ^ 2 + u.2 ^ 2).headD 0 = _
    rw [hu]
    show 4 * (u.1 ^ 2 + u.2 ^ 2) = _
    rw [hnorm, hu']
    rw [samples_at]
    dsimp only [p, t]
    by_cases c1 : n < m
    · rw [if_pos c1, if_neg (by omega), if_neg (by omega)]
      norm_num
    · rw [if_neg c1, if_pos (by omega : m ≤ n)]
      by_cases c2 : 2 * m ≤ n
      · have h3 : (n - m) / m ≠ 0 := by
          have : 1 ≤ (n - m) / m := by rw [Nat.le_div_iff_mul_le hm]; omega
          omega
        have h4 : (n - m) / m - 1 = (n - 2 * m) / m := by
          have : n - m = (n - 2 * m) + m := by omega
          rw [this, Nat.add_div_right _ hm, Nat.add_sub_cancel]
        rw [if_pos c2, if_neg h3, h4]
        cases bit ((n - m) / m) i <;> cases bit ((n - 2 * m) / m) i <;> norm_num
      · have h3 : (n - m) / m = 0 := Nat.div_eq_of_lt (by omega)
        rw [if_neg c2, if_pos h3, h3]
        cases bit 0 i <;> norm_num
  rw [hp, ht]
  have hpt : ∀ j, p (j + m) = t j := fun j => by
    funext i
    simp [p]
  have hBq : (0 : ℚ) < B := by exact_mod_cast hB
  have hmq : (0 : ℚ) < m := by exact_mod_cast hm
  have hlat : (1 : ℚ) = (m : ℚ) * B / ((m * B : ℕ) : ℚ) := by push_cast; field_simp
  have hmT : m < T := by
    have : 2 * m ≤ bits.length * m := Nat.mul_le_mul_right m hN
    omega
  constructor
  · rw [hlat]
    refine C52_mse_partial T 0 m t p B (m * B : ℕ) hBq (by exact_mod_cast Nat.mul_pos hm hB) ?_ hpt
    have : rounded (((0 : ℕ) : ℚ) * ((m * B : ℕ) : ℚ) / B) = 0 := by
      unfold rounded
      norm_num
    omega
  · intro hz
    rw [hlat]
    have hg : Nat.gcd (m * B) B = B := Nat.gcd_eq_right (Dvd.intro_left m rfl)
    refine C52_ber_partial T 0 m B (m * B) hB (Nat.mul_pos hm hB) t p (1 / 2) (by norm_num) ?_ ?_ hpt ?_
    · intro j _ i
      dsimp only [t]
      generalize xor (bit (j / m) i) _ = x
      cases x
      · exact .inl rfl
      · exact .inr rfl
    · intro i
      obtain ⟨q, hq, hqi⟩ := hz i
      obtain ⟨k, hk, rfl⟩ := List.getElem_of_mem hq
      have hk' : k < bits.length := hlen ▸ hk
      refine ⟨k * m, by rw [hTdef]; exact Nat.mul_lt_mul_of_pos_right hk' hm, ?_⟩
      have := xorPrevious_getD bits k hk' i
      rw [List.getD_eq_getElem?_getD, List.getElem?_eq_getElem hk, Option.getD_some, hqi] at this
      dsimp only [t]
      rw [Nat.mul_div_cancel _ hm, if_neg]
      rw [hbit]
      simpa using this.symm
    · rw [hg, Nat.div_self hB, Nat.mul_div_cancel _ hB, Nat.div_one, Nat.zero_mul, Nat.zero_add]
      have : 2 * m ≤ bits.length * m := Nat.mul_le_mul_right m hN
      omega

/-- The numbers of the notebook: 20 Gb/s, 16 samples per bit, and a stream of four bits. -/
example : xorPrevious [fun _ : Unit => true, fun _ => true, fun _ => false, fun _ => true] =
    [fun _ => true, fun _ => false, fun _ => true, fun _ => true] ∧
    ∃ φ1 φ2 d, LinkedNet (xorModules (299792458 / (3.4 * (20000000000 : ℕ))) 2.34 1.55e-6 3.4 φ1 φ2) interferometerLinks d ∧
      ∀ env : SimEnv, env.freqdomain = false → env.dt = some (1 / ((16 : ℕ) * (20000000000 : ℕ) : ℝ)) → env.t.length = 64 →
        ∃ r, initNet (d.plant 299792458 fun _ : Unit => 1.55e-6) env = .ok (some r) := by
  refine ⟨by decide +kernel, ?_⟩
  obtain ⟨φ1, φ2, d, hd, H⟩ := C93_xor 299792458 3.4 2.34 1.55e-6 1.55e-6 (by norm_num) (by norm_num) 20000000000 16
    (by norm_num) (by norm_num)
  refine ⟨φ1, φ2, d, hd, fun env h1 h2 h3 => ?_⟩
  obtain ⟨r, _, _, hr, -⟩ := H Unit (fun _ => []) (fun _ => ([], [])) [fun _ => true, fun _ => true, fun _ => false, fun _ => true]
    env (by decide) h1 h2 h3
  exact ⟨r, hr⟩

/-- With equal arms and couplers that split evenly, the detector is dark. -/
example (z : Wg) : ∃ d, LinkedNet (interferometerModules (1 / 2) (1 / 2) z z) interferometerLinks d ∧
    ∀ env : SimEnv, env.freqdomain = true → env.t.length = 1 → ∃ r, initNet (d.plant 299792458 fun _ : Unit => 1.55e-6) env = .ok (some r) ∧
      ∀ (cs : List (Actor Unit Unit)) (src : ℕ → ℕ → Unit → Unit → ℝ × ℝ), ∃ o, forwardReduced r env cs src = .ok [o] ∧
        ∀ w b, (o w b).map asComplex = [0] := by
  obtain ⟨d, hd, H⟩ := C93_frequency (1 / 2) (1 / 2) z z
  refine ⟨d, hd, fun env h1 h2 => ?_⟩
  obtain ⟨r, hr, H⟩ := H Unit Unit 299792458 (fun _ => 1.55e-6) env h1 h2
  refine ⟨r, hr, fun cs src => ?_⟩
  obtain ⟨o, ho, H⟩ := H cs src
  refine ⟨o, ho, fun w b => ?_⟩
  rw [H w b, sqrt_half.1, sqrt_half.2, sub_self, zero_mul]

end PT
