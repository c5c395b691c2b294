import Verif.Proof.NetEqs
import Verif.Props.Universal

/-!
# C89: the textbook ring filters

The networks of the example notebooks `01_all_pass_filter` and `02_add_drop_filter`, for all parameters.
-/

namespace PT.Spec
open Complex

/-- The parameters of a waveguide. -/
structure Wg where
  length : ℝ
  loss : ℝ
  neff : ℝ
  wl0 : ℝ
  ng : ℝ
  phase : ℝ

/-- The waveguide. -/
noncomputable def Wg.part (g : Wg) : Part := .waveguide g.length g.loss g.neff g.wl0 g.ng g.phase

/-- What a waveguide does to the amplitude of light: the loss is given in dB/m, the effective index is linear in the
wavelength. -/
noncomputable def Wg.amp (g : Wg) (wl : ℝ) : ℂ :=
  ((10 : ℝ) ^ (-(g.loss * g.length) / 20) : ℝ) *
    exp ((2 * Real.pi * (g.neff + (g.wl0 - wl) * (g.ng - g.neff) / g.wl0) * g.length / wl + g.phase : ℝ) * I)

/-- The delay of a waveguide in time steps, when light travels at speed `v`. -/
noncomputable def Wg.steps (g : Wg) (v dt : ℝ) : ℕ := ⌊g.ng * g.length / v / dt + 1 / 2⌋.toNat

/-- A ring on a bus, as in the notebook `01_all_pass_filter`. -/
noncomputable def allPassModules (k : ℝ) (x y z : Wg) : List (Str × Part) :=
  [("src".toList, .source), ("wg_in".toList, x.part), ("dc".toList, .coupler k), ("wg_through".toList, y.part),
    ("wg_ring".toList, z.part), ("det".toList, .detector)]

/-- Its links. -/
def allPassLinks : List (List LinkArg) :=
  [[.str "src:0".toList, .str "0:wg_in:1".toList, .str "0:dc:1".toList, .str "0:wg_through:1".toList, .str "0:det".toList],
    [.str "dc:2".toList, .str "0:wg_ring:1".toList, .str "3:dc".toList]]

/-- A ring between two buses, as in the notebook `02_add_drop_filter`. -/
noncomputable def addDropModules (k1 k2 : ℝ) (z1 z2 : Wg) : List (Str × Part) :=
  [("term_in".toList, .source), ("term_pass".toList, .detector), ("term_add".toList, .detector),
    ("term_drop".toList, .detector), ("dc1".toList, .coupler k1), ("dc2".toList, .coupler k2), ("wg1".toList, z1.part),
    ("wg2".toList, z2.part)]

/-- Its links. -/
def addDropLinks : List (List LinkArg) :=
  [[.str "term_in:0".toList, .str "0:dc1:2".toList, .str "0:wg1:1".toList, .str "1:dc2:3".toList, .str "0:term_drop".toList],
    [.str "term_pass:0".toList, .str "1:dc1:3".toList, .str "0:wg2:1".toList, .str "0:dc2:2".toList, .str "0:term_add".toList]]

/-- The network with the given components and calls of `link`. -/
def LinkedNet (modules : List (Str × Part)) (links : List (List LinkArg)) (d : Dev) : Prop :=
  (∀ l ∈ links, (linkConns l).2 = .ok ()) ∧
    mkDev none (modules.map fun p => (p.1, p.2.dev)) (links.flatMap fun l => (linkConns l).1) = .ok d

end PT.Spec

namespace PT
open Spec Matrix

variable {W B : Type}

theorem wg_entry (g : Wg) (wl : ℝ) : g.part.dev.entry wl 0 0 = 0 ∧ g.part.dev.entry wl 0 1 = g.amp wl ∧
    g.part.dev.entry wl 1 0 = g.amp wl ∧ g.part.dev.entry wl 1 1 = 0 := by
  have h : ∀ i j : Fin 2, g.part.dev.entry wl i j = _ := fun i j => (entry_scattering g.part wl i j).trans
    (congrFun (congrFun (waveguide_shape g.length g.loss g.neff g.wl0 g.ng g.phase wl) i) j)
  have ha : (lossFactor g.loss g.length : ℂ) * Complex.exp ((propagation g.length g.neff g.wl0 g.ng wl + modTwoPi g.phase : ℝ) * Complex.I)
      = g.amp wl := by
    unfold lossFactor Wg.amp
    rw [neg_mul]
    congr 1
    rw [Complex.ofReal_add, add_mul, Complex.exp_add, exp_modTwoPi, propagation, exp_modTwoPi, ← Complex.exp_add, ← add_mul,
      ← Complex.ofReal_add, show neffAt g.neff g.wl0 g.ng wl = g.neff + (g.wl0 - wl) * (g.ng - g.neff) / g.wl0 by unfold neffAt; ring]
  exact ⟨h 0 0, (h 0 1).trans ha, (h 1 0).trans ha, h 1 1⟩

theorem wg_sum (g : Wg) (wl : ℝ) (f : ℕ → ℂ) :
    ∑ q ∈ Finset.range g.part.n, g.part.dev.entry wl 0 q * f q = g.amp wl * f 1 ∧
    ∑ q ∈ Finset.range g.part.n, g.part.dev.entry wl 1 q * f q = g.amp wl * f 0 := by
  obtain ⟨h1, h2, h3, h4⟩ := wg_entry g wl
  have hn : g.part.n = 2 := rfl
  simp [hn, Finset.sum_range_succ, h1, h2, h3, h4]

theorem coupler_sum (k wl : ℝ) (f : ℕ → ℂ) :
    ∑ q ∈ Finset.range (Part.coupler k).n, (Part.coupler k).dev.entry wl 0 q * f q = √(1 - k) * f 1 + Complex.I * √k * f 2 ∧
    ∑ q ∈ Finset.range (Part.coupler k).n, (Part.coupler k).dev.entry wl 1 q * f q = √(1 - k) * f 0 + Complex.I * √k * f 3 ∧
    ∑ q ∈ Finset.range (Part.coupler k).n, (Part.coupler k).dev.entry wl 2 q * f q = Complex.I * √k * f 0 + √(1 - k) * f 3 ∧
    ∑ q ∈ Finset.range (Part.coupler k).n, (Part.coupler k).dev.entry wl 3 q * f q = Complex.I * √k * f 1 + √(1 - k) * f 2 := by
  have h : ∀ i j : Fin 4, (Part.coupler k).dev.entry wl i j = _ := fun i j => (entry_scattering (.coupler k) wl i j).trans
    (congrFun (congrFun (coupler_shape k) i) j)
  have h00 := h 0 0
  have h01 := h 0 1
  have h02 := h 0 2
  have h03 := h 0 3
  have h10 := h 1 0
  have h11 := h 1 1
  have h12 := h 1 2
  have h13 := h 1 3
  have h20 := h 2 0
  have h21 := h 2 1
  have h22 := h 2 2
  have h23 := h 2 3
  have h30 := h 3 0
  have h31 := h 3 1
  have h32 := h 3 2
  have h33 := h 3 3
  have e1 : (⟨√(1 - k), 0⟩ : ℂ) = (√(1 - k) : ℝ) := rfl
  have e2 : (⟨0, √k⟩ : ℂ) = Complex.I * (√k : ℝ) := by apply Complex.ext <;> simp
  simp [cross4] at h00 h01 h02 h03 h10 h11 h12 h13 h20 h21 h22 h23 h30 h31 h32 h33
  have hn : (Part.coupler k).n = 4 := rfl
  refine ⟨?_, ?_, ?_, ?_⟩ <;>
    simp [hn, Finset.sum_range_succ, h00, h01, h02, h03, h10, h11, h12, h13, h20, h21, h22, h23, h30, h31, h32, h33, e1, e2]

theorem end_entry : (∀ wl i j, Part.source.dev.entry wl i j = 0) ∧ ∀ wl i j, Part.detector.dev.entry wl i j = 0 := by
  have h0 : ∀ i j, ofFin (0 : Matrix (Fin 1) (Fin 1) ℝ) i j = 0 := by
    intro i j
    unfold ofFin
    split <;> rfl
  constructor <;> intro wl i j <;> apply Complex.ext <;> exact h0 i j

theorem end_sum (wl : ℝ) (f : ℕ → ℂ) :
    ∑ q ∈ Finset.range Part.source.n, Part.source.dev.entry wl 0 q * f q = 0 ∧
    ∑ q ∈ Finset.range Part.detector.n, Part.detector.dev.entry wl 0 q * f q = 0 := by
  refine ⟨Finset.sum_eq_zero fun q hq => ?_, Finset.sum_eq_zero fun q hq => ?_⟩
  · rw [end_entry.1 wl 0 q, zero_mul]
  · rw [end_entry.2 wl 0 q, zero_mul]

/-! ## The ring on a bus -/

def allPassConns : List Conn :=
  [.inner "src".toList 0 "wg_in".toList 0, .inner "wg_in".toList 1 "dc".toList 0, .inner "dc".toList 1 "wg_through".toList 0,
    .inner "wg_through".toList 1 "det".toList 0, .inner "dc".toList 2 "wg_ring".toList 0,
    .inner "wg_ring".toList 1 "dc".toList 3]

theorem allPass_conns : (∀ l ∈ allPassLinks, (linkConns l).2 = .ok ()) ∧
    (allPassLinks.flatMap fun l => (linkConns l).1) = allPassConns.map Conn.text := by
  decide +kernel

noncomputable def allPassParts (k : ℝ) (x y z : Wg) : List Part := [.source, x.part, .coupler k, y.part, .detector, z.part]

def allPassPairs : List (ℕ × ℕ) := [(0, 1), (2, 3), (4, 7), (8, 9), (5, 10), (11, 6)]

theorem allPass_wired (k : ℝ) (x y z : Wg) : ∃ d, LinkedNet (allPassModules k x y z) allPassLinks d ∧ MadeOf (fun _ => True) d ∧
    Wired d (allPassParts k x y z) allPassPairs := by
  obtain ⟨d, h1, h2, h3⟩ := wired_net (allPassModules k x y z)
    [("src".toList, .source), ("wg_in".toList, x.part), ("dc".toList, .coupler k), ("wg_through".toList, y.part),
      ("det".toList, .detector), ("wg_ring".toList, z.part)] allPassConns
    [("src".toList, source), ("wg_in".toList, passive 2), ("dc".toList, passive 4), ("wg_through".toList, passive 2),
      ("wg_ring".toList, passive 2), ("det".toList, detector)]
    [("src".toList, source), ("wg_in".toList, passive 2), ("dc".toList, passive 4), ("wg_through".toList, passive 2),
      ("det".toList, detector), ("wg_ring".toList, passive 2)] allPassPairs rfl rfl (by
      intro p hp
      simp only [allPassModules, List.mem_cons, List.not_mem_nil, or_false] at hp
      rcases hp with rfl | rfl | rfl | rfl | rfl | rfl
      · exact Nat.one_pos
      · exact Nat.two_pos
      · exact (by decide : 0 < 4)
      · exact Nat.two_pos
      · exact Nat.two_pos
      · exact Nat.one_pos) (goodConns_dec (by decide +kernel)) ⟨by decide +kernel, by decide +kernel⟩
    ⟨by decide +kernel, by decide +kernel, by decide +kernel⟩ (by
      have h : usedNames ((allPassConns.map Conn.text).map stripConn) =
          ["src".toList, "wg_in".toList, "dc".toList, "wg_through".toList, "det".toList, "wg_ring".toList] := by decide +kernel
      rw [h]
      rfl) (by decide +kernel)
  exact ⟨d, ⟨allPass_conns.1, by rw [allPass_conns.2]; exact h1⟩, h2, h3⟩

theorem allPass_marks {k : ℝ} {x y z : Wg} {d : Dev} (h : Wired d (allPassParts k x y z) allPassPairs) :
    (portsWith fun i : Fin d.comp.n => d.comp.src.getD i false).map Fin.val = [0] ∧
    (portsWith fun i : Fin d.comp.n => d.comp.det.getD i false).map Fin.val = [9] :=
  ⟨portsWith_vals _ 12 _ [true, false, false, false, false, false, false, false, false, false, false, false] _ h.flat.n h.flat.src rfl,
    portsWith_vals _ 12 _ [false, false, false, false, false, false, false, false, false, true, false, false] _ h.flat.n h.flat.det rfl⟩

theorem partAt_inj {L : List Part} {i : ℕ} {a b : ℕ × Part × ℕ} (h1 : partAt L i = some a) (h2 : partAt L i = some b) : a = b :=
  Option.some.inj (h1.symm.trans h2)

theorem not_remembers_coupler (env : SimEnv) (v k : ℝ) : ¬Remembers env v (.coupler k) := by
  rintro (h | h | ⟨-, dt, -, h⟩)
  · cases h
  · cases h
  · have : roundSteps (Part.delay v (.coupler k) / dt) = 0 := by
      show roundSteps (0 / dt) = 0
      rw [zero_div]
      unfold roundSteps
      norm_num
    omega

theorem not_remembers_freq (env : SimEnv) (v : ℝ) (g : Wg) (hf : env.freqdomain = true) : ¬Remembers env v g.part := by
  rintro (h | h | ⟨h, -⟩)
  · cases h
  · cases h
  · rw [hf] at h; cases h

theorem wg_delay (g : Wg) (v dt : ℝ) : roundSteps (g.part.delay v / dt) = g.steps v dt := rfl

theorem sq_couple {k : ℝ} (hk : 0 ≤ k ∧ k ≤ 1) : (√(1 - k) : ℂ) ^ 2 = 1 - k ∧ (√k : ℂ) ^ 2 = k := by
  constructor
  · rw [← Complex.ofReal_pow, Real.sq_sqrt (by linarith [hk.2])]; push_cast; rfl
  · rw [← Complex.ofReal_pow, Real.sq_sqrt hk.1]

/-- Light does not stay in the ring, so the filter can be initialized. -/
theorem allPass_init {k : ℝ} {x y z : Wg} {d : Dev} (h : Wired d (allPassParts k x y z) allPassPairs) (v : ℝ) (wl : W → ℝ)
    (env : SimEnv) (hz : ∀ w, Remembers env v z.part ∨ √(1 - k) * z.amp (wl w) ≠ 1) :
    ∃ r, initNet (d.plant v wl) env = .ok (some r) := by
  refine h.init v wl env (i₀ := 0) (k₀ := 0) (p₀ := .source) (i₀' := 0) rfl (.inl rfl) fun w U Y hout hl hr hin => ?_
  have hc := not_remembers_coupler env v k
  obtain ⟨s0, r0⟩ := hout (i := 0) (k := 0) (p := .source) (i' := 0) rfl (.inl rfl)
  obtain ⟨s9, r9⟩ := hout (i := 9) (k := 4) (p := .detector) (i' := 0) rfl (.inr (.inl rfl))
  have d3 := hin (i := 3) (k := 2) (p := .coupler k) (i' := 0) rfl hc
  have d4 := hin (i := 4) (k := 2) (p := .coupler k) (i' := 1) rfl hc
  have d5 := hin (i := 5) (k := 2) (p := .coupler k) (i' := 2) rfl hc
  have d6 := hin (i := 6) (k := 2) (p := .coupler k) (i' := 3) rfl hc
  rw [(coupler_sum k (wl w) fun q => U (3 - 0 + q)).1] at d3
  rw [(coupler_sum k (wl w) fun q => U (4 - 1 + q)).2.1] at d4
  rw [(coupler_sum k (wl w) fun q => U (5 - 2 + q)).2.2.1] at d5
  rw [(coupler_sum k (wl w) fun q => U (6 - 3 + q)).2.2.2] at d6
  norm_num at d3 d4 d5 d6
  have l3 := hr (2, 3) (by simp [allPassPairs]) (k := 2) (p := .coupler k) (i' := 0) rfl hc
  have l4 := hl (4, 7) (by simp [allPassPairs]) (k := 2) (p := .coupler k) (i' := 1) rfl hc
  have l5 := hl (5, 10) (by simp [allPassPairs]) (k := 2) (p := .coupler k) (i' := 2) rfl hc
  have l6 := hr (11, 6) (by simp [allPassPairs]) (k := 2) (p := .coupler k) (i' := 3) rfl hc
  -- the bus before the ring
  have hx : U 3 = 0 ∧ U 1 = 0 ∧ (Y 3 = 0 → U 2 = 0) := by
    by_cases hx : Remembers env v x.part
    · have a := hout (i := 1) (k := 1) (p := x.part) (i' := 0) rfl hx
      have b := hout (i := 2) (k := 1) (p := x.part) (i' := 1) rfl hx
      exact ⟨l3.trans b.2, a.1, fun _ => b.1⟩
    · have a := hin (i := 2) (k := 1) (p := x.part) (i' := 1) rfl hx
      rw [(wg_sum x (wl w) fun q => U (2 - 1 + q)).2] at a
      have b := hr (0, 1) (by simp [allPassPairs]) (k := 1) (p := x.part) (i' := 0) rfl hx
      have c := hl (2, 3) (by simp [allPassPairs]) (k := 1) (p := x.part) (i' := 1) rfl hx
      have b' : U 1 = 0 := b.trans r0
      refine ⟨l3.trans (a.trans ?_), b', fun h => c.trans h⟩
      show _ * U 1 = 0
      rw [b', mul_zero]
  -- the bus behind the ring
  have hy : U 4 = 0 ∧ U 8 = 0 ∧ (Y 4 = 0 → U 7 = 0) := by
    by_cases hy : Remembers env v y.part
    · have a := hout (i := 7) (k := 3) (p := y.part) (i' := 0) rfl hy
      have b := hout (i := 8) (k := 3) (p := y.part) (i' := 1) rfl hy
      exact ⟨l4.trans a.2, b.1, fun _ => a.1⟩
    · have a := hin (i := 7) (k := 3) (p := y.part) (i' := 0) rfl hy
      rw [(wg_sum y (wl w) fun q => U (7 - 0 + q)).1] at a
      have b := hl (8, 9) (by simp [allPassPairs]) (k := 3) (p := y.part) (i' := 1) rfl hy
      have c := hr (4, 7) (by simp [allPassPairs]) (k := 3) (p := y.part) (i' := 0) rfl hy
      have b' : U 8 = 0 := b.trans r9
      refine ⟨l4.trans (a.trans ?_), b', fun h => c.trans h⟩
      show _ * U 8 = 0
      rw [b', mul_zero]
  obtain ⟨u3, u1, hx2⟩ := hx
  obtain ⟨u4, u8, hy7⟩ := hy
  -- the ring
  have hring : U 5 = 0 ∧ U 6 = 0 ∧ U 10 = 0 ∧ U 11 = 0 := by
    by_cases hzr : Remembers env v z.part
    · have a := hout (i := 10) (k := 5) (p := z.part) (i' := 0) rfl hzr
      have b := hout (i := 11) (k := 5) (p := z.part) (i' := 1) rfl hzr
      exact ⟨l5.trans a.2, l6.trans b.2, a.1, b.1⟩
    · have hne := (hz w).resolve_left hzr
      have a := hin (i := 10) (k := 5) (p := z.part) (i' := 0) rfl hzr
      rw [(wg_sum z (wl w) fun q => U (10 - 0 + q)).1] at a
      have b := hin (i := 11) (k := 5) (p := z.part) (i' := 1) rfl hzr
      rw [(wg_sum z (wl w) fun q => U (11 - 1 + q)).2] at b
      have c := hr (5, 10) (by simp [allPassPairs]) (k := 5) (p := z.part) (i' := 0) rfl hzr
      have e := hl (11, 6) (by simp [allPassPairs]) (k := 5) (p := z.part) (i' := 1) rfl hzr
      norm_num at a b
      simp only at c e l5 l6
      have hne' : 1 - √(1 - k) * z.amp (wl w) ≠ 0 := sub_ne_zero.mpr (Ne.symm hne)
      have u6 : U 6 = 0 := by
        have : (1 - √(1 - k) * z.amp (wl w)) * U 6 = 0 := by
          linear_combination l6 + b + z.amp (wl w) * (c + d5) + z.amp (wl w) * (Complex.I * √k) * u3
        exact (mul_eq_zero.mp this).resolve_left hne'
      have u5 : U 5 = 0 := by
        have : (1 - √(1 - k) * z.amp (wl w)) * U 5 = 0 := by
          linear_combination l5 + a + z.amp (wl w) * (e + d6) + z.amp (wl w) * (Complex.I * √k) * u4
        exact (mul_eq_zero.mp this).resolve_left hne'
      refine ⟨u5, u6, ?_, ?_⟩
      · rw [c, d5, u3, u6]; ring
      · rw [e, d6, u4, u5]; ring
  obtain ⟨u5, u6, u10, u11⟩ := hring
  have u2 : U 2 = 0 := hx2 (by rw [d3, u4, u5]; ring)
  have u7 : U 7 = 0 := hy7 (by rw [d4, u3, u6]; ring)
  intro i hi
  have hi' : i < 12 := hi
  interval_cases i <;> assumption

/-- C89, the ring on a bus in the frequency domain: for all waveguides and couplers the detected amplitude is the textbook formula.
Initialization fails exactly at a resonance without loss. -/
theorem C89_all_pass (k : ℝ) (hk : 0 ≤ k ∧ k ≤ 1) (x y z : Wg) :
    ∃ d, LinkedNet (allPassModules k x y z) allPassLinks d ∧ ∀ (W B : Type) (v : ℝ) (wl : W → ℝ) (env : SimEnv),
      env.freqdomain = true → env.t.length = 1 →
      ((∀ w, √(1 - k) * z.amp (wl w) ≠ 1) → ∃ r, initNet (d.plant v wl) env = .ok (some r) ∧
        ∀ (cs : List (Actor W B)) (src : ℕ → ℕ → W → B → ℝ × ℝ), ∃ o, forwardReduced r env cs src = .ok [o] ∧
          ∀ w b, (o w b).map asComplex = [x.amp (wl w) * y.amp (wl w) * ((√(1 - k) - z.amp (wl w)) /
            (1 - √(1 - k) * z.amp (wl w))) * asComplex (src 0 0 w b)]) ∧
      ((∃ w, √(1 - k) * z.amp (wl w) = 1) → initNet (d.plant v wl) env = .error .runtimeError) := by
  obtain ⟨d, hd, hM, h⟩ := allPass_wired k x y z
  obtain ⟨m1, m2⟩ := allPass_marks h
  refine ⟨d, hd, fun W B v wl env hf ht1 => ⟨fun hne => ?_, ?_⟩⟩
  · obtain ⟨r, hr⟩ := allPass_init h v wl env fun w => .inr (hne w)
    refine ⟨r, hr, fun cs src => ?_⟩
    obtain ⟨o, ho, H⟩ := h.freq hM v wl env hf ht1 _ _ m1 m2 (by simp) r hr cs src
    refine ⟨o, ho, fun w b => ?_⟩
    obtain ⟨A, B', hl, hb, hout⟩ := H w b
    rw [hout]
    show [A 9] = _
    congr 1
    have b0 := hb (i := 0) (k := 0) (p := .source) (i' := 0) rfl
    rw [(end_sum (wl w) fun q => A (0 - 0 + q)).1] at b0
    have b2 := hb (i := 2) (k := 1) (p := x.part) (i' := 1) rfl
    rw [(wg_sum x (wl w) fun q => A (2 - 1 + q)).2] at b2
    have b4 := hb (i := 4) (k := 2) (p := .coupler k) (i' := 1) rfl
    rw [(coupler_sum k (wl w) fun q => A (4 - 1 + q)).2.1] at b4
    have b5 := hb (i := 5) (k := 2) (p := .coupler k) (i' := 2) rfl
    rw [(coupler_sum k (wl w) fun q => A (5 - 2 + q)).2.2.1] at b5
    have b8 := hb (i := 8) (k := 3) (p := y.part) (i' := 1) rfl
    rw [(wg_sum y (wl w) fun q => A (8 - 1 + q)).2] at b8
    have b11 := hb (i := 11) (k := 5) (p := z.part) (i' := 1) rfl
    rw [(wg_sum z (wl w) fun q => A (11 - 1 + q)).2] at b11
    norm_num at b0 b2 b4 b5 b8 b11
    have l1 := (hl (0, 1) (by simp [allPassPairs])).2
    have l3 := (hl (2, 3) (by simp [allPassPairs])).2
    have l7 := (hl (4, 7) (by simp [allPassPairs])).2
    have l9 := (hl (8, 9) (by simp [allPassPairs])).2
    have l10 := (hl (5, 10) (by simp [allPassPairs])).2
    have l6 := (hl (11, 6) (by simp [allPassPairs])).2
    simp only at l1 l3 l7 l9 l10 l6
    have hne' : 1 - √(1 - k) * z.amp (wl w) ≠ 0 := sub_ne_zero.mpr (Ne.symm (hne w))
    obtain ⟨q1, q2⟩ := sq_couple hk
    have a3 : A 3 = x.amp (wl w) * asComplex (src 0 0 w b) := by rw [l3, b2, l1, b0]
    have a6 : (1 - √(1 - k) * z.amp (wl w)) * A 6 = z.amp (wl w) * (Complex.I * √k) * A 3 := by
      linear_combination l6 + b11 + z.amp (wl w) * (l10 + b5)
    have a9 : A 9 = y.amp (wl w) * (√(1 - k) * A 3 + Complex.I * √k * A 6) := by rw [l9, b8, l7, b4]
    have a6' : A 6 = z.amp (wl w) * (Complex.I * √k) * A 3 / (1 - √(1 - k) * z.amp (wl w)) := by
      rw [eq_div_iff hne', mul_comm, a6]
    rw [a9, a6', a3]
    field_simp
    have hI := Complex.I_sq
    linear_combination x.amp (wl w) * y.amp (wl w) * asComplex (src 0 0 w b) *
      ((z.amp (wl w) * √k ^ 2) * hI - z.amp (wl w) * q1 - z.amp (wl w) * q2)
  · rintro ⟨w, hw⟩
    have hc := not_remembers_coupler env v k
    have hall : ∀ {i k' : ℕ} {p : Part} {i' : ℕ}, partAt (allPassParts k x y z) i = some (k', p, i') → ¬Remembers env v p → i < 12 :=
      fun hi _ => by have := partAt_bound h.flat hi; rw [h.flat.n] at this; exact this
    let U : ℕ → ℂ := fun i => if i = 6 then 1 else if i = 10 then √(1 - k) else if i = 7 then Complex.I * √k else 0
    let Y : ℕ → ℂ := fun i => if i = 11 then 1 else if i = 5 then √(1 - k) else if i = 4 then Complex.I * √k else
      if i = 8 then y.amp (wl w) * (Complex.I * √k) else 0
    refine h.fails v wl env (i₀ := 0) (k₀ := 0) (p₀ := .source) (i₀' := 0) rfl (.inl rfl) w U Y ?_ ?_ ⟨6, (by decide : 6 < 12), by simp [U]⟩
    · intro i k' p i' hi hr
      have hlt : i < 12 := by have := partAt_bound h.flat hi; rw [h.flat.n] at this; exact this
      have hp : i = 0 ∨ i = 9 := by
        by_contra hcon
        push Not at hcon
        have : ∀ g : Wg, ¬Remembers env v g.part := fun g => not_remembers_freq env v g hf
        interval_cases i
        · exact hcon.1 rfl
        · cases partAt_inj hi (rfl : partAt _ 1 = some (1, x.part, 0)); exact this x hr
        · cases partAt_inj hi (rfl : partAt _ 2 = some (1, x.part, 1)); exact this x hr
        · cases partAt_inj hi (rfl : partAt _ 3 = some (2, .coupler k, 0)); exact hc hr
        · cases partAt_inj hi (rfl : partAt _ 4 = some (2, .coupler k, 1)); exact hc hr
        · cases partAt_inj hi (rfl : partAt _ 5 = some (2, .coupler k, 2)); exact hc hr
        · cases partAt_inj hi (rfl : partAt _ 6 = some (2, .coupler k, 3)); exact hc hr
        · cases partAt_inj hi (rfl : partAt _ 7 = some (3, y.part, 0)); exact this y hr
        · cases partAt_inj hi (rfl : partAt _ 8 = some (3, y.part, 1)); exact this y hr
        · exact hcon.2 rfl
        · cases partAt_inj hi (rfl : partAt _ 10 = some (5, z.part, 0)); exact this z hr
        · cases partAt_inj hi (rfl : partAt _ 11 = some (5, z.part, 1)); exact this z hr
      rcases hp with rfl | rfl <;> simp [U, Y]
    · intro i k' p i' hi hr
      have hlt : i < 12 := by have := partAt_bound h.flat hi; rw [h.flat.n] at this; exact this
      interval_cases i
      · cases partAt_inj hi (rfl : partAt _ 0 = some (0, .source, 0)); exact absurd (.inl rfl) hr
      · cases partAt_inj hi (rfl : partAt _ 1 = some (1, x.part, 0))
        rw [(wg_sum x (wl w) fun q => U (1 - 0 + q)).1]
        exact ⟨⟨0, by simp [allPassPairs], by simp [U, Y]⟩, by simp [U, Y]⟩
      · cases partAt_inj hi (rfl : partAt _ 2 = some (1, x.part, 1))
        rw [(wg_sum x (wl w) fun q => U (2 - 1 + q)).2]
        exact ⟨⟨3, by simp [allPassPairs], by simp [U, Y]⟩, by simp [U, Y]⟩
      · cases partAt_inj hi (rfl : partAt _ 3 = some (2, .coupler k, 0))
        rw [(coupler_sum k (wl w) fun q => U (3 - 0 + q)).1]
        exact ⟨⟨2, by simp [allPassPairs], by simp [U, Y]⟩, by simp [U, Y]⟩
      · cases partAt_inj hi (rfl : partAt _ 4 = some (2, .coupler k, 1))
        rw [(coupler_sum k (wl w) fun q => U (4 - 1 + q)).2.1]
        exact ⟨⟨7, by simp [allPassPairs], by simp [U, Y]⟩, by simp [U, Y]⟩
      · cases partAt_inj hi (rfl : partAt _ 5 = some (2, .coupler k, 2))
        rw [(coupler_sum k (wl w) fun q => U (5 - 2 + q)).2.2.1]
        exact ⟨⟨10, by simp [allPassPairs], by simp [U, Y]⟩, by simp [U, Y]⟩
      · cases partAt_inj hi (rfl : partAt _ 6 = some (2, .coupler k, 3))
        rw [(coupler_sum k (wl w) fun q => U (6 - 3 + q)).2.2.2]
        exact ⟨⟨11, by simp [allPassPairs], by simp [U, Y]⟩, by simp [U, Y]⟩
      · cases partAt_inj hi (rfl : partAt _ 7 = some (3, y.part, 0))
        rw [(wg_sum y (wl w) fun q => U (7 - 0 + q)).1]
        exact ⟨⟨4, by simp [allPassPairs], by simp [U, Y]⟩, by simp [U, Y]⟩
      · cases partAt_inj hi (rfl : partAt _ 8 = some (3, y.part, 1))
        rw [(wg_sum y (wl w) fun q => U (8 - 1 + q)).2]
        exact ⟨⟨9, by simp [allPassPairs], by simp [U, Y]⟩, by simp [U, Y]⟩
      · cases partAt_inj hi (rfl : partAt _ 9 = some (4, .detector, 0)); exact absurd (.inr (.inl rfl)) hr
      · cases partAt_inj hi (rfl : partAt _ 10 = some (5, z.part, 0))
        rw [(wg_sum z (wl w) fun q => U (10 - 0 + q)).1]
        exact ⟨⟨5, by simp [allPassPairs], by simp [U, Y]⟩, by simp [U, Y]⟩
      · cases partAt_inj hi (rfl : partAt _ 11 = some (5, z.part, 1))
        rw [(wg_sum z (wl w) fun q => U (11 - 1 + q)).2]
        exact ⟨⟨6, by simp [allPassPairs], by simp [U, Y]⟩, by simp [U, Y, mul_comm, hw]⟩

/-- What comes around the ring: a sum over the round trips. -/
theorem ring_sum (T D : ℕ) (hD : 0 < D) (c t z : ℂ) (f R : ℕ → ℂ)
    (h : ∀ n < T, R n = z * past (fun m => c * f m + t * R m) n D) :
    ∀ n < T, ∀ N, n ≤ N → R n = c * ∑ j ∈ Finset.range N, t ^ j * z ^ (j + 1) * past f n ((j + 1) * D) := by
  intro n
  induction n using Nat.strong_induction_on with
  | _ n ih =>
    intro hn N hN
    rw [h n hn]
    unfold past
    by_cases hle : D ≤ n
    · rw [if_pos hle]
      obtain ⟨N', rfl⟩ : ∃ N', N = N' + 1 := ⟨N - 1, by omega⟩
      show z * (c * f (n - D) + t * R (n - D)) = c * ∑ j ∈ Finset.range (N' + 1), t ^ j * z ^ (j + 1) * past f n ((j + 1) * D)
      rw [ih (n - D) (by omega) (by omega) N' (by omega), Finset.sum_range_succ']
      have e : ∀ j, past f (n - D) ((j + 1) * D) = past f n ((j + 1 + 1) * D) := by
        intro j
        unfold past
        have h1 : (j + 1 + 1) * D = (j + 1) * D + D := by ring
        by_cases hj : (j + 1) * D ≤ n - D
        · rw [if_pos hj, if_pos (by omega), h1]
          congr 1
          omega
        · rw [if_neg hj, if_neg (by omega)]
      rw [Finset.sum_congr rfl fun j _ => by rw [e j]]
      have h0 : past f n ((0 + 1) * D) = f (n - D) := by
        unfold past
        rw [zero_add, one_mul, if_pos hle]
      rw [h0]
      have : ∀ g : ℕ → ℂ, z * (c * f (n - D) + t * (c * ∑ j ∈ Finset.range N', t ^ j * z ^ (j + 1) * g j)) =
          c * (∑ j ∈ Finset.range N', t ^ (j + 1) * z ^ (j + 1 + 1) * g j + t ^ 0 * z ^ (0 + 1) * f (n - D)) := by
        intro g
        have : ∑ j ∈ Finset.range N', t ^ (j + 1) * z ^ (j + 1 + 1) * g j =
            t * z * ∑ j ∈ Finset.range N', t ^ j * z ^ (j + 1) * g j := by
          rw [Finset.mul_sum]
          exact Finset.sum_congr rfl fun j _ => by ring
        rw [this]
        ring
      exact this _
    · rw [if_neg hle, mul_zero, Finset.sum_eq_zero, mul_zero]
      intro j _
      rw [if_neg, mul_zero]
      have : D ≤ (j + 1) * D := Nat.le_mul_of_pos_left _ (Nat.succ_pos _)
      omega

theorem past_congr {f g : ℕ → ℂ} {n : ℕ} (τ : ℕ) (h : ∀ m ≤ n, f m = g m) : past f n τ = past g n τ := by
  unfold past
  split
  · exact h _ (Nat.sub_le ..)
  · rfl

theorem past_zero (f : ℕ → ℂ) (n : ℕ) : past f n 0 = f n := by
  unfold past
  rw [if_pos (Nat.zero_le _), Nat.sub_zero]

theorem past_mul (c : ℂ) (f : ℕ → ℂ) (n τ : ℕ) : past (fun m => c * f m) n τ = c * past f n τ := by
  unfold past
  split
  · rfl
  · rw [mul_zero]

theorem past_past (f : ℕ → ℂ) (n τ σ : ℕ) : past (fun m => past f m σ) n τ = past f n (σ + τ) := by
  unfold past
  by_cases h : τ ≤ n
  · rw [if_pos h]
    show (if σ ≤ n - τ then f (n - τ - σ) else 0) = _
    by_cases h' : σ ≤ n - τ
    · rw [if_pos h', if_pos (by omega)]
      congr 1
      omega
    · rw [if_neg h', if_neg (by omega)]
  · rw [if_neg h, if_neg (by omega)]

theorem past_add (f g : ℕ → ℂ) (n τ : ℕ) : past (fun m => f m + g m) n τ = past f n τ + past g n τ := by
  unfold past
  split
  · rfl
  · rw [add_zero]

theorem past_sum (l : Finset ℕ) (f : ℕ → ℕ → ℂ) (n τ : ℕ) : past (fun m => ∑ j ∈ l, f j m) n τ = ∑ j ∈ l, past (f j) n τ := by
  unfold past
  split
  · rfl
  · rw [Finset.sum_const_zero]

/-- C89, the ring on a bus in the time domain, for rings with a delay of at least one step: at every time the detected amplitude is
that of the light that passed the ring, plus that of the light which went around it once, twice, …, each as it was emitted when it
had to be. -/
theorem C89_round_trips (k : ℝ) (hk : 0 ≤ k ∧ k ≤ 1) (x y z : Wg) :
    ∃ d, LinkedNet (allPassModules k x y z) allPassLinks d ∧ ∀ (W B : Type) (v : ℝ) (wl : W → ℝ) (env : SimEnv) (dt : ℝ),
      env.freqdomain = false → env.dt = some dt → 0 < dt → 0 < z.steps v dt →
      ∃ r, initNet (d.plant v wl) env = .ok (some r) ∧
        ∀ (cs : List (Actor W B)) (src : ℕ → ℕ → W → B → ℝ × ℝ), ∃ out, forwardReduced r env cs src = .ok out ∧
          out.length = env.t.length ∧ ∀ n (hn : n < out.length) w b, (out[n] w b).map asComplex =
            [x.amp (wl w) * y.amp (wl w) *
              (√(1 - k) * past (fun m => asComplex (src m 0 w b)) n (x.steps v dt + y.steps v dt) -
                k * ∑ j ∈ Finset.range n, (√(1 - k) : ℂ) ^ j * z.amp (wl w) ^ (j + 1) *
                  past (fun m => asComplex (src m 0 w b)) n (x.steps v dt + y.steps v dt + (j + 1) * z.steps v dt))] := by
  obtain ⟨d, hd, hM, h⟩ := allPass_wired k x y z
  obtain ⟨m1, m2⟩ := allPass_marks h
  refine ⟨d, hd, fun W B v wl env dt hf hdt hpos hD => ?_⟩
  obtain ⟨r, hr⟩ := allPass_init h v wl env fun w => .inl (.inr (.inr ⟨hf, dt, hdt, hD⟩))
  refine ⟨r, hr, fun cs src => ?_⟩
  obtain ⟨out, ho, hlen, H⟩ := h.steps hM v wl env dt hdt hpos hf _ _ m1 m2 (by simp) r hr cs src
  refine ⟨out, ho, hlen, fun n hn w b => ?_⟩
  obtain ⟨A, B', hl, hb, he, hout⟩ := H w b
  rw [hout n hn]
  show [A n 9] = _
  congr 1
  have hwg : ∀ g : Wg, ∀ q < g.part.n, g.part.comp.src.getD q false = false ∧ g.part.comp.det.getD q false = false := by
    intro g q hq
    have : q < 2 := hq
    interval_cases q <;> exact ⟨rfl, rfl⟩
  have hcp : ∀ q < (Part.coupler k).n, (Part.coupler k).comp.src.getD q false = false ∧ (Part.coupler k).comp.det.getD q false = false := by
    intro q hq
    have : q < 4 := hq
    interval_cases q <;> exact ⟨rfl, rfl⟩
  have hc0 : roundSteps ((Part.coupler k).delay v / dt) = 0 := by
    show roundSteps (0 / dt) = 0
    rw [zero_div]
    unfold roundSteps
    norm_num
  generalize hs : (fun m => asComplex (src m 0 w b)) = s
  have hT : ∀ m, m ≤ n → m < env.t.length := fun m hm => by omega
  have b0 : ∀ m ≤ n, B' m 0 = s m := fun m hm => by
    have := he m (hT m hm) (i := 0) (k := 0) (p := .source) (i' := 0) rfl fun q _ => end_entry.1 _ _ _
    rw [this, ← hs]
    rfl
  have b2 : ∀ m ≤ n, B' m 2 = x.amp (wl w) * past (fun m => A m 1) m (x.steps v dt) := fun m hm => by
    have := hb m (hT m hm) (i := 2) (k := 1) (p := x.part) (i' := 1) rfl fun q hq => ⟨by
      have : q < 2 := hq
      interval_cases q <;> rfl, hwg x q hq⟩
    rw [(wg_sum x (wl w) _).2, wg_delay] at this
    simpa using this
  have b8 : ∀ m ≤ n, B' m 8 = y.amp (wl w) * past (fun m => A m 7) m (y.steps v dt) := fun m hm => by
    have := hb m (hT m hm) (i := 8) (k := 3) (p := y.part) (i' := 1) rfl fun q hq => ⟨by
      have : q < 2 := hq
      interval_cases q <;> rfl, hwg y q hq⟩
    rw [(wg_sum y (wl w) _).2, wg_delay] at this
    simpa using this
  have b11 : ∀ m ≤ n, B' m 11 = z.amp (wl w) * past (fun m => A m 10) m (z.steps v dt) := fun m hm => by
    have := hb m (hT m hm) (i := 11) (k := 5) (p := z.part) (i' := 1) rfl fun q hq => ⟨by
      have : q < 2 := hq
      interval_cases q <;> rfl, hwg z q hq⟩
    rw [(wg_sum z (wl w) _).2, wg_delay] at this
    simpa using this
  have b4 : ∀ m ≤ n, B' m 4 = √(1 - k) * A m 3 + Complex.I * √k * A m 6 := fun m hm => by
    have := hb m (hT m hm) (i := 4) (k := 2) (p := .coupler k) (i' := 1) rfl fun q hq => ⟨by
      have : q < 4 := hq
      interval_cases q <;> rfl, hcp q hq⟩
    rw [(coupler_sum k (wl w) _).2.1, hc0] at this
    simpa [past_zero] using this
  have b5 : ∀ m ≤ n, B' m 5 = Complex.I * √k * A m 3 + √(1 - k) * A m 6 := fun m hm => by
    have := hb m (hT m hm) (i := 5) (k := 2) (p := .coupler k) (i' := 2) rfl fun q hq => ⟨by
      have : q < 4 := hq
      interval_cases q <;> rfl, hcp q hq⟩
    rw [(coupler_sum k (wl w) _).2.2.1, hc0] at this
    simpa [past_zero] using this
  have l1 : ∀ m ≤ n, A m 1 = B' m 0 := fun m hm => (hl m (hT m hm) (0, 1) (by simp [allPassPairs])).2
  have l3 : ∀ m ≤ n, A m 3 = B' m 2 := fun m hm => (hl m (hT m hm) (2, 3) (by simp [allPassPairs])).2
  have l7 : ∀ m ≤ n, A m 7 = B' m 4 := fun m hm => (hl m (hT m hm) (4, 7) (by simp [allPassPairs])).2
  have l9 : ∀ m ≤ n, A m 9 = B' m 8 := fun m hm => (hl m (hT m hm) (8, 9) (by simp [allPassPairs])).2
  have l10 : ∀ m ≤ n, A m 10 = B' m 5 := fun m hm => (hl m (hT m hm) (5, 10) (by simp [allPassPairs])).2
  have l6 : ∀ m ≤ n, A m 6 = B' m 11 := fun m hm => (hl m (hT m hm) (11, 6) (by simp [allPassPairs])).2
  -- before the ring
  have a3 : ∀ m ≤ n, A m 3 = x.amp (wl w) * past s m (x.steps v dt) := fun m hm => by
    rw [l3 m hm, b2 m hm, past_congr _ fun m' hm' => (l1 m' (hm'.trans hm)).trans (b0 m' (hm'.trans hm))]
  -- around the ring
  have a6 := ring_sum (n + 1) (z.steps v dt) hD (Complex.I * √k) √(1 - k) (z.amp (wl w)) (fun m => A m 3) (fun m => A m 6)
    fun m hm => by
      rw [l6 m (by omega), b11 m (by omega), past_congr _ fun m' hm' => (l10 m' (by omega)).trans (b5 m' (by omega))]
  -- behind the ring
  rw [l9 n le_rfl, b8 n le_rfl, past_congr _ fun m hm => (l7 m hm).trans ((b4 m hm).trans (by
    rw [a6 m (by omega) n hm, a3 m hm])), past_add, past_mul, past_mul, past_mul, past_past, past_mul, past_sum]
  have e : ∀ j, past (fun m => (√(1 - k) : ℂ) ^ j * z.amp (wl w) ^ (j + 1) * past (fun m => A m 3) m ((j + 1) * z.steps v dt)) n (y.steps v dt) =
      x.amp (wl w) * ((√(1 - k) : ℂ) ^ j * z.amp (wl w) ^ (j + 1) * past s n (x.steps v dt + y.steps v dt + (j + 1) * z.steps v dt)) := by
    intro j
    rw [past_mul, past_past, past_congr _ a3, past_mul, past_past,
      show x.steps v dt + ((j + 1) * z.steps v dt + y.steps v dt) = x.steps v dt + y.steps v dt + (j + 1) * z.steps v dt by ring]
    ring
  rw [Finset.sum_congr rfl fun j _ => e j, ← Finset.mul_sum]
  have q2 := (sq_couple hk).2
  have hI := Complex.I_sq
  generalize (∑ j ∈ Finset.range n, (_ : ℂ)) = X
  linear_combination y.amp (wl w) * x.amp (wl w) * X * (√k ^ 2 * hI - q2)

/-! ## The ring between two buses -/

def addDropConns : List Conn :=
  [.inner "term_in".toList 0 "dc1".toList 0, .inner "dc1".toList 2 "wg1".toList 0, .inner "wg1".toList 1 "dc2".toList 1,
    .inner "dc2".toList 3 "term_drop".toList 0, .inner "term_pass".toList 0 "dc1".toList 1, .inner "dc1".toList 3 "wg2".toList 0,
    .inner "wg2".toList 1 "dc2".toList 0, .inner "dc2".toList 2 "term_add".toList 0]

theorem addDrop_conns : (∀ l ∈ addDropLinks, (linkConns l).2 = .ok ()) ∧
    (addDropLinks.flatMap fun l => (linkConns l).1) = addDropConns.map Conn.text := by
  decide +kernel

noncomputable def addDropParts (k1 k2 : ℝ) (z1 z2 : Wg) : List Part :=
  [.source, .coupler k1, z1.part, .coupler k2, .detector, .detector, z2.part, .detector]

def addDropPairs : List (ℕ × ℕ) := [(0, 1), (3, 5), (6, 8), (10, 11), (12, 2), (4, 13), (14, 7), (9, 15)]

theorem addDrop_wired (k1 k2 : ℝ) (z1 z2 : Wg) : ∃ d, LinkedNet (addDropModules k1 k2 z1 z2) addDropLinks d ∧
    MadeOf (fun _ => True) d ∧ Wired d (addDropParts k1 k2 z1 z2) addDropPairs := by
  obtain ⟨d, h1, h2, h3⟩ := wired_net (addDropModules k1 k2 z1 z2)
    [("term_in".toList, .source), ("dc1".toList, .coupler k1), ("wg1".toList, z1.part), ("dc2".toList, .coupler k2),
      ("term_drop".toList, .detector), ("term_pass".toList, .detector), ("wg2".toList, z2.part), ("term_add".toList, .detector)]
    addDropConns
    [("term_in".toList, source), ("term_pass".toList, detector), ("term_add".toList, detector),
      ("term_drop".toList, detector), ("dc1".toList, passive 4), ("dc2".toList, passive 4), ("wg1".toList, passive 2),
      ("wg2".toList, passive 2)]
    [("term_in".toList, source), ("dc1".toList, passive 4), ("wg1".toList, passive 2), ("dc2".toList, passive 4),
      ("term_drop".toList, detector), ("term_pass".toList, detector), ("wg2".toList, passive 2), ("term_add".toList, detector)]
    addDropPairs rfl rfl (by
      intro p hp
      simp only [addDropModules, List.mem_cons, List.not_mem_nil, or_false] at hp
      rcases hp with rfl | rfl | rfl | rfl | rfl | rfl | rfl | rfl
      · exact Nat.one_pos
      · exact Nat.one_pos
      · exact Nat.one_pos
      · exact Nat.one_pos
      · exact (by decide : 0 < 4)
      · exact (by decide : 0 < 4)
      · exact Nat.two_pos
      · exact Nat.two_pos) (goodConns_dec (by decide +kernel)) ⟨by decide +kernel, by decide +kernel⟩
    ⟨by decide +kernel, by decide +kernel, by decide +kernel⟩ (by
      have h : usedNames ((addDropConns.map Conn.text).map stripConn) =
          ["term_in".toList, "dc1".toList, "wg1".toList, "dc2".toList, "term_drop".toList, "term_pass".toList, "wg2".toList,
            "term_add".toList] := by decide +kernel
      rw [h]
      rfl) (by decide +kernel)
  exact ⟨d, ⟨addDrop_conns.1, by rw [addDrop_conns.2]; exact h1⟩, h2, h3⟩

theorem addDrop_marks {k1 k2 : ℝ} {z1 z2 : Wg} {d : Dev} (h : Wired d (addDropParts k1 k2 z1 z2) addDropPairs) :
    (portsWith fun i : Fin d.comp.n => d.comp.src.getD i false).map Fin.val = [0] ∧
    (portsWith fun i : Fin d.comp.n => d.comp.det.getD i false).map Fin.val = [11, 12, 15] :=
  ⟨portsWith_vals _ 16 _ [true, false, false, false, false, false, false, false, false, false, false, false, false, false, false, false]
      _ h.flat.n h.flat.src rfl,
    portsWith_vals _ 16 _ [false, false, false, false, false, false, false, false, false, false, false, true, true, false, false, true]
      _ h.flat.n h.flat.det rfl⟩

/-- Light does not stay in the ring, so the filter can be initialized. -/
theorem addDrop_init {k1 k2 : ℝ} {z1 z2 : Wg} {d : Dev} (h : Wired d (addDropParts k1 k2 z1 z2) addDropPairs) (v : ℝ) (wl : W → ℝ)
    (env : SimEnv) (hz : ∀ w, Remembers env v z1.part ∨ Remembers env v z2.part ∨
      √(1 - k1) * √(1 - k2) * z1.amp (wl w) * z2.amp (wl w) ≠ 1) :
    ∃ r, initNet (d.plant v wl) env = .ok (some r) := by
  refine h.init v wl env (i₀ := 0) (k₀ := 0) (p₀ := .source) (i₀' := 0) rfl (.inl rfl) fun w U Y hout hl hr hin => ?_
  have hc := not_remembers_coupler env v
  have r0 := hout (i := 0) (k := 0) (p := .source) (i' := 0) rfl (.inl rfl)
  have r11 := hout (i := 11) (k := 4) (p := .detector) (i' := 0) rfl (.inr (.inl rfl))
  have r12 := hout (i := 12) (k := 5) (p := .detector) (i' := 0) rfl (.inr (.inl rfl))
  have r15 := hout (i := 15) (k := 7) (p := .detector) (i' := 0) rfl (.inr (.inl rfl))
  have d1 := hin (i := 1) (k := 1) (p := .coupler k1) (i' := 0) rfl (hc k1)
  have d2 := hin (i := 2) (k := 1) (p := .coupler k1) (i' := 1) rfl (hc k1)
  have d3 := hin (i := 3) (k := 1) (p := .coupler k1) (i' := 2) rfl (hc k1)
  have d4 := hin (i := 4) (k := 1) (p := .coupler k1) (i' := 3) rfl (hc k1)
  have d7 := hin (i := 7) (k := 3) (p := .coupler k2) (i' := 0) rfl (hc k2)
  have d8 := hin (i := 8) (k := 3) (p := .coupler k2) (i' := 1) rfl (hc k2)
  rw [(coupler_sum k1 (wl w) fun q => U (1 - 0 + q)).1] at d1
  rw [(coupler_sum k1 (wl w) fun q => U (2 - 1 + q)).2.1] at d2
  rw [(coupler_sum k1 (wl w) fun q => U (3 - 2 + q)).2.2.1] at d3
  rw [(coupler_sum k1 (wl w) fun q => U (4 - 3 + q)).2.2.2] at d4
  rw [(coupler_sum k2 (wl w) fun q => U (7 - 0 + q)).1] at d7
  rw [(coupler_sum k2 (wl w) fun q => U (8 - 1 + q)).2.1] at d8
  norm_num at d1 d2 d3 d4 d7 d8
  have l1 := hr (0, 1) (by simp [addDropPairs]) (k := 1) (p := .coupler k1) (i' := 0) rfl (hc k1)
  have l2 := hr (12, 2) (by simp [addDropPairs]) (k := 1) (p := .coupler k1) (i' := 1) rfl (hc k1)
  have l3 := hl (3, 5) (by simp [addDropPairs]) (k := 1) (p := .coupler k1) (i' := 2) rfl (hc k1)
  have l4 := hl (4, 13) (by simp [addDropPairs]) (k := 1) (p := .coupler k1) (i' := 3) rfl (hc k1)
  have l7 := hr (14, 7) (by simp [addDropPairs]) (k := 3) (p := .coupler k2) (i' := 0) rfl (hc k2)
  have l8 := hr (6, 8) (by simp [addDropPairs]) (k := 3) (p := .coupler k2) (i' := 1) rfl (hc k2)
  have l9 := hl (9, 15) (by simp [addDropPairs]) (k := 3) (p := .coupler k2) (i' := 2) rfl (hc k2)
  have l10 := hl (10, 11) (by simp [addDropPairs]) (k := 3) (p := .coupler k2) (i' := 3) rfl (hc k2)
  simp only at l1 l2 l3 l4 l7 l8 l9 l10
  have u1 : U 1 = 0 := l1.trans r0.2
  have u2 : U 2 = 0 := l2.trans r12.2
  have u9 : U 9 = 0 := l9.trans r15.2
  have u10 : U 10 = 0 := l10.trans r11.2
  have hg1 : ∃ g : ℂ, (Remembers env v z1.part → g = 0) ∧ (¬Remembers env v z1.part → g = z1.amp (wl w)) ∧
      Y 5 = g * Y 8 ∧ Y 6 = g * Y 3 ∧ (U 5 = 0 ∨ U 5 = Y 3) ∧ (U 6 = 0 ∨ U 6 = Y 8) := by
    by_cases hx : Remembers env v z1.part
    · have a := hout (i := 5) (k := 2) (p := z1.part) (i' := 0) rfl hx
      have b := hout (i := 6) (k := 2) (p := z1.part) (i' := 1) rfl hx
      exact ⟨0, fun _ => rfl, fun h => absurd hx h, by rw [a.2, zero_mul], by rw [b.2, zero_mul], .inl a.1, .inl b.1⟩
    · have a := hin (i := 5) (k := 2) (p := z1.part) (i' := 0) rfl hx
      have b := hin (i := 6) (k := 2) (p := z1.part) (i' := 1) rfl hx
      rw [(wg_sum z1 (wl w) fun q => U (5 - 0 + q)).1] at a
      rw [(wg_sum z1 (wl w) fun q => U (6 - 1 + q)).2] at b
      have c := hr (3, 5) (by simp [addDropPairs]) (k := 2) (p := z1.part) (i' := 0) rfl hx
      have e := hl (6, 8) (by simp [addDropPairs]) (k := 2) (p := z1.part) (i' := 1) rfl hx
      simp only at c e
      norm_num at a b
      exact ⟨_, fun h => absurd h hx, fun _ => rfl, by rw [a, e], by rw [b, c], .inr c, .inr e⟩
  have hg2 : ∃ g : ℂ, (Remembers env v z2.part → g = 0) ∧ (¬Remembers env v z2.part → g = z2.amp (wl w)) ∧
      Y 13 = g * Y 7 ∧ Y 14 = g * Y 4 ∧ (U 13 = 0 ∨ U 13 = Y 4) ∧ (U 14 = 0 ∨ U 14 = Y 7) := by
    by_cases hx : Remembers env v z2.part
    · have a := hout (i := 13) (k := 6) (p := z2.part) (i' := 0) rfl hx
      have b := hout (i := 14) (k := 6) (p := z2.part) (i' := 1) rfl hx
      exact ⟨0, fun _ => rfl, fun h => absurd hx h, by rw [a.2, zero_mul], by rw [b.2, zero_mul], .inl a.1, .inl b.1⟩
    · have a := hin (i := 13) (k := 6) (p := z2.part) (i' := 0) rfl hx
      have b := hin (i := 14) (k := 6) (p := z2.part) (i' := 1) rfl hx
      rw [(wg_sum z2 (wl w) fun q => U (13 - 0 + q)).1] at a
      rw [(wg_sum z2 (wl w) fun q => U (14 - 1 + q)).2] at b
      have c := hr (4, 13) (by simp [addDropPairs]) (k := 6) (p := z2.part) (i' := 0) rfl hx
      have e := hl (14, 7) (by simp [addDropPairs]) (k := 6) (p := z2.part) (i' := 1) rfl hx
      simp only at c e
      norm_num at a b
      exact ⟨_, fun h => absurd h hx, fun _ => rfl, by rw [a, e], by rw [b, c], .inr c, .inr e⟩
  obtain ⟨g1, m1, n1, y5, y6, o5, o6⟩ := hg1
  obtain ⟨g2, m2, n2, y13, y14, o13, o14⟩ := hg2
  have hne : (1 - √(1 - k1) * √(1 - k2) * g1 * g2 : ℂ) ≠ 0 := by
    by_cases c1 : Remembers env v z1.part
    · rw [m1 c1]; simp
    · by_cases c2 : Remembers env v z2.part
      · rw [m2 c2]; simp
      · rw [n1 c1, n2 c2]
        exact sub_ne_zero.mpr (Ne.symm (((hz w).resolve_left c1).resolve_left c2))
  have u4 : U 4 = 0 := by
    have : (1 - √(1 - k1) * √(1 - k2) * g1 * g2 : ℂ) * U 4 = 0 := by
      linear_combination l4 + y13 + g2 * d7 + g2 * √(1 - k2) * (l8 + y6 + g1 * d3) + g2 * (Complex.I * √k2) * u9 +
        g2 * √(1 - k2) * g1 * (Complex.I * √k1) * u1
    exact (mul_eq_zero.mp this).resolve_left hne
  have u3 : U 3 = 0 := by
    have : (1 - √(1 - k1) * √(1 - k2) * g1 * g2 : ℂ) * U 3 = 0 := by
      linear_combination l3 + y5 + g1 * d8 + g1 * √(1 - k2) * (l7 + y14 + g2 * d4) + g1 * (Complex.I * √k2) * u10 +
        g1 * √(1 - k2) * g2 * (Complex.I * √k1) * u2
    exact (mul_eq_zero.mp this).resolve_left hne
  have e3 : Y 3 = 0 := by rw [d3, u1, u4]; ring
  have e4 : Y 4 = 0 := by rw [d4, u2, u3]; ring
  have u8 : U 8 = 0 := by rw [l8, y6, e3, mul_zero]
  have u7 : U 7 = 0 := by rw [l7, y14, e4, mul_zero]
  have e7 : Y 7 = 0 := by rw [d7, u8, u9]; ring
  have e8 : Y 8 = 0 := by rw [d8, u7, u10]; ring
  have u5 : U 5 = 0 := o5.elim id fun h => h.trans e3
  have u6 : U 6 = 0 := o6.elim id fun h => h.trans e8
  have u13 : U 13 = 0 := o13.elim id fun h => h.trans e4
  have u14 : U 14 = 0 := o14.elim id fun h => h.trans e7
  have u0 := r0.1
  have u11 := r11.1
  have u12 := r12.1
  have u15 := r15.1
  intro i hi
  have hi' : i < 16 := hi
  interval_cases i <;> assumption

/-- C89, the ring between two buses in the frequency domain: the detectors (in the order of the links: drop, pass, add) measure the
textbook formulas. Initialization fails exactly at a resonance without loss. -/
theorem C89_add_drop (k1 k2 : ℝ) (hk1 : 0 ≤ k1 ∧ k1 ≤ 1) (z1 z2 : Wg) :
    ∃ d, LinkedNet (addDropModules k1 k2 z1 z2) addDropLinks d ∧ ∀ (W B : Type) (v : ℝ) (wl : W → ℝ) (env : SimEnv),
      env.freqdomain = true → env.t.length = 1 →
      ((∀ w, √(1 - k1) * √(1 - k2) * z1.amp (wl w) * z2.amp (wl w) ≠ 1) → ∃ r, initNet (d.plant v wl) env = .ok (some r) ∧
        ∀ (cs : List (Actor W B)) (src : ℕ → ℕ → W → B → ℝ × ℝ), ∃ o, forwardReduced r env cs src = .ok [o] ∧
          ∀ w b, (o w b).map asComplex =
            [-(√k1 * √k2 * z1.amp (wl w)) / (1 - √(1 - k1) * √(1 - k2) * z1.amp (wl w) * z2.amp (wl w)) * asComplex (src 0 0 w b),
              (√(1 - k1) - √(1 - k2) * z1.amp (wl w) * z2.amp (wl w)) /
                (1 - √(1 - k1) * √(1 - k2) * z1.amp (wl w) * z2.amp (wl w)) * asComplex (src 0 0 w b), 0]) ∧
      ((∃ w, √(1 - k1) * √(1 - k2) * z1.amp (wl w) * z2.amp (wl w) = 1) → initNet (d.plant v wl) env = .error .runtimeError) := by
  obtain ⟨d, hd, hM, h⟩ := addDrop_wired k1 k2 z1 z2
  obtain ⟨m1, m2⟩ := addDrop_marks h
  refine ⟨d, hd, fun W B v wl env hf ht1 => ⟨fun hne => ?_, ?_⟩⟩
  · obtain ⟨r, hr⟩ := addDrop_init h v wl env fun w => .inr (.inr (hne w))
    refine ⟨r, hr, fun cs src => ?_⟩
    obtain ⟨o, ho, H⟩ := h.freq hM v wl env hf ht1 _ _ m1 m2 (by simp) r hr cs src
    refine ⟨o, ho, fun w b => ?_⟩
    obtain ⟨A, B', hl, hb, hout⟩ := H w b
    rw [hout]
    show [A 11, A 12, A 15] = _
    have b0 := hb (i := 0) (k := 0) (p := .source) (i' := 0) rfl
    rw [(end_sum (wl w) fun q => A (0 - 0 + q)).1] at b0
    have b11 := hb (i := 11) (k := 4) (p := .detector) (i' := 0) rfl
    rw [(end_sum (wl w) fun q => A (11 - 0 + q)).2] at b11
    have b12 := hb (i := 12) (k := 5) (p := .detector) (i' := 0) rfl
    rw [(end_sum (wl w) fun q => A (12 - 0 + q)).2] at b12
    have b15 := hb (i := 15) (k := 7) (p := .detector) (i' := 0) rfl
    rw [(end_sum (wl w) fun q => A (15 - 0 + q)).2] at b15
    have b2 := hb (i := 2) (k := 1) (p := .coupler k1) (i' := 1) rfl
    rw [(coupler_sum k1 (wl w) fun q => A (2 - 1 + q)).2.1] at b2
    have b3 := hb (i := 3) (k := 1) (p := .coupler k1) (i' := 2) rfl
    rw [(coupler_sum k1 (wl w) fun q => A (3 - 2 + q)).2.2.1] at b3
    have b4 := hb (i := 4) (k := 1) (p := .coupler k1) (i' := 3) rfl
    rw [(coupler_sum k1 (wl w) fun q => A (4 - 3 + q)).2.2.2] at b4
    have b7 := hb (i := 7) (k := 3) (p := .coupler k2) (i' := 0) rfl
    rw [(coupler_sum k2 (wl w) fun q => A (7 - 0 + q)).1] at b7
    have b8 := hb (i := 8) (k := 3) (p := .coupler k2) (i' := 1) rfl
    rw [(coupler_sum k2 (wl w) fun q => A (8 - 1 + q)).2.1] at b8
    have b9 := hb (i := 9) (k := 3) (p := .coupler k2) (i' := 2) rfl
    rw [(coupler_sum k2 (wl w) fun q => A (9 - 2 + q)).2.2.1] at b9
    have b10 := hb (i := 10) (k := 3) (p := .coupler k2) (i' := 3) rfl
    rw [(coupler_sum k2 (wl w) fun q => A (10 - 3 + q)).2.2.2] at b10
    have b5 := hb (i := 5) (k := 2) (p := z1.part) (i' := 0) rfl
    rw [(wg_sum z1 (wl w) fun q => A (5 - 0 + q)).1] at b5
    have b6 := hb (i := 6) (k := 2) (p := z1.part) (i' := 1) rfl
    rw [(wg_sum z1 (wl w) fun q => A (6 - 1 + q)).2] at b6
    have b13 := hb (i := 13) (k := 6) (p := z2.part) (i' := 0) rfl
    rw [(wg_sum z2 (wl w) fun q => A (13 - 0 + q)).1] at b13
    have b14 := hb (i := 14) (k := 6) (p := z2.part) (i' := 1) rfl
    rw [(wg_sum z2 (wl w) fun q => A (14 - 1 + q)).2] at b14
    norm_num at b0 b2 b3 b4 b5 b6 b7 b8 b9 b10 b11 b12 b13 b14 b15
    obtain ⟨-, l1⟩ := hl (0, 1) (by simp [addDropPairs])
    obtain ⟨l3, l5⟩ := hl (3, 5) (by simp [addDropPairs])
    obtain ⟨l6, l8⟩ := hl (6, 8) (by simp [addDropPairs])
    obtain ⟨l10, l11⟩ := hl (10, 11) (by simp [addDropPairs])
    obtain ⟨l12, l2⟩ := hl (12, 2) (by simp [addDropPairs])
    obtain ⟨l4, l13⟩ := hl (4, 13) (by simp [addDropPairs])
    obtain ⟨l14, l7⟩ := hl (14, 7) (by simp [addDropPairs])
    obtain ⟨l9, l15⟩ := hl (9, 15) (by simp [addDropPairs])
    simp only at l1 l2 l3 l4 l5 l6 l7 l8 l9 l10 l11 l12 l13 l14 l15
    have hne' : 1 - √(1 - k1) * √(1 - k2) * z1.amp (wl w) * z2.amp (wl w) ≠ 0 := sub_ne_zero.mpr (Ne.symm (hne w))
    obtain ⟨q1, q2⟩ := sq_couple hk1
    have hI := Complex.I_sq
    have a2 : A 2 = 0 := l2.trans b12
    have a9 : A 9 = 0 := l9.trans b15
    have a10 : A 10 = 0 := l10.trans b11
    have a1 : A 1 = asComplex (src 0 0 w b) := l1.trans b0
    -- with the light
    have a8 : A 8 = z1.amp (wl w) * (Complex.I * √k1 * A 1 + √(1 - k1) * A 4) := by rw [l8, b6, l5, b3]
    have a4 : A 4 = z2.amp (wl w) * (√(1 - k2) * A 8) := by rw [l4, b13, l14, b7, a9, mul_zero, add_zero]
    have a8' : A 8 = z1.amp (wl w) * Complex.I * √k1 * A 1 / (1 - √(1 - k1) * √(1 - k2) * z1.amp (wl w) * z2.amp (wl w)) := by
      rw [eq_div_iff hne']
      linear_combination a8 + z1.amp (wl w) * √(1 - k1) * a4
    -- against it
    have a3 : A 3 = z1.amp (wl w) * (√(1 - k2) * A 7) := by rw [l3, b5, l6, b8, a10, mul_zero, add_zero]
    have a7 : A 7 = z2.amp (wl w) * (√(1 - k1) * A 3) := by rw [l7, b14, l13, b4, a2, mul_zero, zero_add]
    have a7' : A 7 = 0 := by
      have : (1 - √(1 - k1) * √(1 - k2) * z1.amp (wl w) * z2.amp (wl w)) * A 7 = 0 := by
        linear_combination a7 + z2.amp (wl w) * √(1 - k1) * a3
      exact (mul_eq_zero.mp this).resolve_left hne'
    congr 1
    · rw [div_mul_eq_mul_div, eq_div_iff hne', l11, b10, a9, ← a1]
      have a8'' := (eq_div_iff hne').mp a8'
      linear_combination Complex.I * √k2 * a8'' + √k1 * √k2 * z1.amp (wl w) * A 1 * hI
    · congr 1
      · rw [div_mul_eq_mul_div, eq_div_iff hne', l12, b2, a4, ← a1]
        have a8'' := (eq_div_iff hne').mp a8'
        linear_combination Complex.I * √k1 * z2.amp (wl w) * √(1 - k2) * a8'' +
          A 1 * z1.amp (wl w) * z2.amp (wl w) * √(1 - k2) * (√k1 ^ 2 * hI - q1 - q2)
      · congr 1
        rw [l15, b9, a7', a10]
        ring
  · rintro ⟨w, hw⟩
    have hc := not_remembers_coupler env v
    have hg : ∀ g : Wg, ¬Remembers env v g.part := fun g => not_remembers_freq env v g hf
    let U : ℕ → ℂ := fun i => if i = 4 then 1 else if i = 5 then √(1 - k1) else if i = 8 then z1.amp (wl w) * √(1 - k1) else
      if i = 14 then √(1 - k2) * (z1.amp (wl w) * √(1 - k1)) else 0
    let Y : ℕ → ℂ := fun i => if i = 13 then 1 else if i = 3 then √(1 - k1) else if i = 6 then z1.amp (wl w) * √(1 - k1) else
      if i = 7 then √(1 - k2) * (z1.amp (wl w) * √(1 - k1)) else if i = 2 then Complex.I * √k1 else
      if i = 10 then Complex.I * √k2 * (z1.amp (wl w) * √(1 - k1)) else 0
    refine h.fails v wl env (i₀ := 0) (k₀ := 0) (p₀ := .source) (i₀' := 0) rfl (.inl rfl) w U Y ?_ ?_
      ⟨4, (by decide : 4 < 16), by simp [U]⟩
    · intro i k' p i' hi hr
      have hlt : i < 16 := by have := partAt_bound h.flat hi; rw [h.flat.n] at this; exact this
      have hp : i = 0 ∨ i = 11 ∨ i = 12 ∨ i = 15 := by
        by_contra hcon
        push Not at hcon
        obtain ⟨c0, c11, c12, c15⟩ := hcon
        interval_cases i
        · exact c0 rfl
        · cases partAt_inj hi (rfl : partAt _ 1 = some (1, .coupler k1, 0)); exact hc _ hr
        · cases partAt_inj hi (rfl : partAt _ 2 = some (1, .coupler k1, 1)); exact hc _ hr
        · cases partAt_inj hi (rfl : partAt _ 3 = some (1, .coupler k1, 2)); exact hc _ hr
        · cases partAt_inj hi (rfl : partAt _ 4 = some (1, .coupler k1, 3)); exact hc _ hr
        · cases partAt_inj hi (rfl : partAt _ 5 = some (2, z1.part, 0)); exact hg _ hr
        · cases partAt_inj hi (rfl : partAt _ 6 = some (2, z1.part, 1)); exact hg _ hr
        · cases partAt_inj hi (rfl : partAt _ 7 = some (3, .coupler k2, 0)); exact hc _ hr
        · cases partAt_inj hi (rfl : partAt _ 8 = some (3, .coupler k2, 1)); exact hc _ hr
        · cases partAt_inj hi (rfl : partAt _ 9 = some (3, .coupler k2, 2)); exact hc _ hr
        · cases partAt_inj hi (rfl : partAt _ 10 = some (3, .coupler k2, 3)); exact hc _ hr
        · exact c11 rfl
        · exact c12 rfl
        · cases partAt_inj hi (rfl : partAt _ 13 = some (6, z2.part, 0)); exact hg _ hr
        · cases partAt_inj hi (rfl : partAt _ 14 = some (6, z2.part, 1)); exact hg _ hr
        · exact c15 rfl
      rcases hp with rfl | rfl | rfl | rfl <;> simp [U, Y]
    · intro i k' p i' hi hr
      have hlt : i < 16 := by have := partAt_bound h.flat hi; rw [h.flat.n] at this; exact this
      interval_cases i
      · cases partAt_inj hi (rfl : partAt _ 0 = some (0, .source, 0)); exact absurd (.inl rfl) hr
      · cases partAt_inj hi (rfl : partAt _ 1 = some (1, .coupler k1, 0))
        rw [(coupler_sum k1 (wl w) fun q => U (1 - 0 + q)).1]
        exact ⟨⟨0, by simp [addDropPairs], by simp [U, Y]⟩, by simp [U, Y]⟩
      · cases partAt_inj hi (rfl : partAt _ 2 = some (1, .coupler k1, 1))
        rw [(coupler_sum k1 (wl w) fun q => U (2 - 1 + q)).2.1]
        exact ⟨⟨12, by simp [addDropPairs], by simp [U, Y]⟩, by simp [U, Y]⟩
      · cases partAt_inj hi (rfl : partAt _ 3 = some (1, .coupler k1, 2))
        rw [(coupler_sum k1 (wl w) fun q => U (3 - 2 + q)).2.2.1]
        exact ⟨⟨5, by simp [addDropPairs], by simp [U, Y]⟩, by simp [U, Y]⟩
      · cases partAt_inj hi (rfl : partAt _ 4 = some (1, .coupler k1, 3))
        rw [(coupler_sum k1 (wl w) fun q => U (4 - 3 + q)).2.2.2]
        exact ⟨⟨13, by simp [addDropPairs], by simp [U, Y]⟩, by simp [U, Y]⟩
      · cases partAt_inj hi (rfl : partAt _ 5 = some (2, z1.part, 0))
        rw [(wg_sum z1 (wl w) fun q => U (5 - 0 + q)).1]
        exact ⟨⟨3, by simp [addDropPairs], by simp [U, Y]⟩, by simp [U, Y]⟩
      · cases partAt_inj hi (rfl : partAt _ 6 = some (2, z1.part, 1))
        rw [(wg_sum z1 (wl w) fun q => U (6 - 1 + q)).2]
        exact ⟨⟨8, by simp [addDropPairs], by simp [U, Y]⟩, by simp [U, Y]⟩
      · cases partAt_inj hi (rfl : partAt _ 7 = some (3, .coupler k2, 0))
        rw [(coupler_sum k2 (wl w) fun q => U (7 - 0 + q)).1]
        exact ⟨⟨14, by simp [addDropPairs], by simp [U, Y]⟩, by simp [U, Y]⟩
      · cases partAt_inj hi (rfl : partAt _ 8 = some (3, .coupler k2, 1))
        rw [(coupler_sum k2 (wl w) fun q => U (8 - 1 + q)).2.1]
        exact ⟨⟨6, by simp [addDropPairs], by simp [U, Y]⟩, by simp [U, Y]⟩
      · cases partAt_inj hi (rfl : partAt _ 9 = some (3, .coupler k2, 2))
        rw [(coupler_sum k2 (wl w) fun q => U (9 - 2 + q)).2.2.1]
        exact ⟨⟨15, by simp [addDropPairs], by simp [U, Y]⟩, by simp [U, Y]⟩
      · cases partAt_inj hi (rfl : partAt _ 10 = some (3, .coupler k2, 3))
        rw [(coupler_sum k2 (wl w) fun q => U (10 - 3 + q)).2.2.2]
        exact ⟨⟨11, by simp [addDropPairs], by simp [U, Y]⟩, by simp [U, Y]⟩
      · cases partAt_inj hi (rfl : partAt _ 11 = some (4, .detector, 0)); exact absurd (.inr (.inl rfl)) hr
      · cases partAt_inj hi (rfl : partAt _ 12 = some (5, .detector, 0)); exact absurd (.inr (.inl rfl)) hr
      · cases partAt_inj hi (rfl : partAt _ 13 = some (6, z2.part, 0))
        rw [(wg_sum z2 (wl w) fun q => U (13 - 0 + q)).1]
        refine ⟨⟨4, by simp [addDropPairs], by simp [U, Y]⟩, ?_⟩
        simp only [U, Y]
        norm_num
        linear_combination -hw
      · cases partAt_inj hi (rfl : partAt _ 14 = some (6, z2.part, 1))
        rw [(wg_sum z2 (wl w) fun q => U (14 - 1 + q)).2]
        exact ⟨⟨7, by simp [addDropPairs], by simp [U, Y]⟩, by simp [U, Y]⟩
      · cases partAt_inj hi (rfl : partAt _ 15 = some (7, .detector, 0)); exact absurd (.inr (.inl rfl)) hr

/-- The amplitude of a waveguide is its loss. -/
theorem wg_norm (g : Wg) (wl : ℝ) : ‖g.amp wl‖ = (10 : ℝ) ^ (-(g.loss * g.length) / 20) := by
  unfold Wg.amp
  rw [norm_mul, Complex.norm_exp_ofReal_mul_I, mul_one, Complex.norm_real, Real.norm_eq_abs, abs_of_pos (by positivity)]

theorem wg_passive (g : Wg) (hg : 0 ≤ g.loss * g.length) (wl : ℝ) : ‖g.amp wl‖ ≤ 1 := by
  rw [wg_norm]
  exact Real.rpow_le_one_of_one_le_of_nonpos (by norm_num) (by linarith)

/-- C89. The resonance without loss does not occur if the coupler couples and the ring does not amplify. -/
theorem C89_passive (k : ℝ) (hk : 0 < k) (z : Wg) (hz : 0 ≤ z.loss * z.length) (wl : ℝ) : √(1 - k) * z.amp wl ≠ 1 := by
  intro h
  have h1 : ‖(√(1 - k) : ℂ) * z.amp wl‖ = 1 := by rw [h, norm_one]
  rw [norm_mul, Complex.norm_real, Real.norm_eq_abs, abs_of_nonneg (Real.sqrt_nonneg _)] at h1
  have h2 := wg_passive z hz wl
  have h3 : √(1 - k) < 1 := by
    rw [Real.sqrt_lt' one_pos]
    linarith
  have h4 := Real.sqrt_nonneg (1 - k)
  nlinarith [norm_nonneg (z.amp wl)]

/-- C89. Without loss in the ring all power passes it, whatever the wavelength: the filter is an all-pass filter. -/
theorem C89_lossless (k : ℝ) (hk : 0 ≤ k ∧ k ≤ 1) (z : Wg) (hz : z.loss * z.length = 0) (wl : ℝ) (hne : √(1 - k) * z.amp wl ≠ 1) :
    ‖(√(1 - k) - z.amp wl) / (1 - √(1 - k) * z.amp wl)‖ = 1 := by
  have h1 : ‖z.amp wl‖ = 1 := by rw [wg_norm, hz]; norm_num
  have h2 : ‖1 - √(1 - k) * z.amp wl‖ ≠ 0 := norm_ne_zero_iff.mpr (sub_ne_zero.mpr (Ne.symm hne))
  rw [norm_div, div_eq_one_iff_eq h2]
  have e : Complex.normSq (z.amp wl) = 1 := by rw [Complex.normSq_eq_norm_sq, h1, one_pow]
  have : Complex.normSq (√(1 - k) - z.amp wl) = Complex.normSq (1 - √(1 - k) * z.amp wl) := by
    rw [Complex.normSq_apply] at e
    simp only [Complex.normSq_apply, Complex.sub_re, Complex.sub_im, Complex.mul_re, Complex.mul_im, Complex.ofReal_re,
      Complex.ofReal_im, Complex.one_re, Complex.one_im]
    have hs := Real.mul_self_sqrt (show 0 ≤ 1 - k by linarith [hk.2])
    linear_combination (1 - √(1 - k) * √(1 - k)) * e
  rw [Complex.normSq_eq_norm_sq, Complex.normSq_eq_norm_sq] at this
  exact (sq_eq_sq₀ (norm_nonneg _) (norm_nonneg _)).mp this

/-- C89. Critical coupling: the filter blocks the light at a resonance if the ring loses per round trip what the coupler couples. -/
theorem C89_critical (k : ℝ) (z : Wg) (wl : ℝ) : (√(1 - k) - z.amp wl) / (1 - √(1 - k) * z.amp wl) = 0 ↔
    z.amp wl = √(1 - k) ∨ √(1 - k) * z.amp wl = 1 := by
  rw [div_eq_zero_iff, sub_eq_zero, sub_eq_zero]
  exact or_congr eq_comm eq_comm

/-- The ring of the notebook: 1 dB per round trip of 10 µm. -/
noncomputable def nbRing : Wg := ⟨1e-5, 1e5, 2.34, 1.55e-6, 3.4, 0⟩
noncomputable def nbBus : Wg := ⟨5e-6, 0, 2.34, 1.55e-6, 3.4, 0⟩

example (wl : Fin 1000 → ℝ) : (0 : ℝ) ≤ 1 - 0.5 ∧ (1 - 0.5 : ℝ) ≤ 1 ∧ ∀ w, √(1 - (1 - 0.5)) * nbRing.amp (wl w) ≠ 1 :=
  ⟨by norm_num, by norm_num, fun w => C89_passive _ (by norm_num) nbRing (by norm_num [nbRing]) _⟩

/-- In the time domain of the notebook, with steps of 10 fs, the ring has a delay of 11 steps. -/
example : nbRing.steps 299792458 1e-14 = 11 := by
  unfold Wg.steps nbRing
  have : ⌊(3.4 * 1e-5 / 299792458 / 1e-14 + 1 / 2 : ℝ)⌋ = 11 := by
    rw [Int.floor_eq_iff]
    constructor <;> norm_num
  rw [this]
  rfl

/-! ## Examples of use -/

/-- The ring filter of the notebook at a thousand wavelengths. -/
example (wl : Fin 1000 → ℝ) : ∃ d, LinkedNet (allPassModules 0.5 nbBus nbBus nbRing) allPassLinks d ∧
    ∃ r, initNet (d.plant 299792458 wl) ⟨none, true, [0]⟩ = .ok (some r) ∧
      ∀ (src : ℕ → ℕ → Fin 1000 → Unit → ℝ × ℝ), ∃ o, forwardReduced r ⟨none, true, [0]⟩ [] src = .ok [o] ∧
        ∀ w b, (o w b).map asComplex = [nbBus.amp (wl w) * nbBus.amp (wl w) * ((√(1 - 0.5) - nbRing.amp (wl w)) /
          (1 - √(1 - 0.5) * nbRing.amp (wl w))) * asComplex (src 0 0 w b)] := by
  obtain ⟨d, h1, h2⟩ := C89_all_pass 0.5 (by norm_num) nbBus nbBus nbRing
  obtain ⟨r, h3, h4⟩ := (h2 (Fin 1000) Unit 299792458 wl ⟨none, true, [0]⟩ rfl rfl).1
    fun w => by exact_mod_cast C89_passive 0.5 (by norm_num) nbRing (by norm_num [nbRing]) (wl w)
  refine ⟨d, h1, r, h3, fun src => ?_⟩
  obtain ⟨o, h5, h6⟩ := h4 [] src
  exact ⟨o, h5, fun w b => by exact_mod_cast h6 w b⟩

/-- Without loss every wavelength passes entirely. -/
example (wl : ℝ) : ‖((√(1 - 0.5) : ℝ) - nbBus.amp wl) / (1 - (√(1 - 0.5) : ℝ) * nbBus.amp wl)‖ = 1 := by
  exact_mod_cast C89_lossless 0.5 (by norm_num) nbBus (by norm_num [nbBus]) wl
    (by exact_mod_cast C89_passive 0.5 (by norm_num) nbBus (by norm_num [nbBus]) wl)

end PT
