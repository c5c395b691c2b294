import Verif.Proof.MeshWaves
import Verif.Proof.Universal
import Verif.Props.Mesh

/-!
# C76: Reck networks are universal
-/

namespace PT
open Spec Matrix

/-- A lossless mesh whose waves are known, terminated with sources on the front and detectors on the back. -/
theorem mesh_realizes_any {P : Part → Prop} (hblank : ∀ p, P p → p ≠ .source ∧ p ≠ .detector) {N : ℕ} (hN : 0 < N) {d : Dev}
    (hd : LayerOK P N d)
    (ho : Oriented d fun j => decide (j < N)) (nw newName : Str) (hg : GoodName nw) (hs : nw.head? ≠ some 's')
    (hdd : nw.head? ≠ some 'd') {wl₀ : ℝ} {U : Matrix (Fin N) (Fin N) ℂ} {y : (ℕ → ℂ) → ℕ → ℂ}
    (hy : ∀ a (k : Fin N), y a k = ∑ j : Fin N, U k j * a j) (hc : ∀ a, Carries d (.steady wl₀ 1) (inSide N a) (outSide N (y a))) :
    ∃ d', termDev newName nw d (meshTerms N) = .ok d' ∧ Realizes N d' wl₀ U := by
  obtain ⟨d', h1, hm, ht, ⟨front, rank, hff, hsrc⟩, c1, c2, hmade⟩ := term_made hblank hN hd ho nw newName hg hs hdd
  refine ⟨d', h1, fun W v wl env hf ht1 => ?_⟩
  obtain ⟨m1, m2, -⟩ := built_marks hm.ok.1
  have e1 : (portsWith (d'.plant v wl).src).length = N := by rw [← c1]; exact count_marks _ _ m1
  have e2 : (portsWith (d'.plant v wl).det).length = N := by rw [← c2]; exact count_marks _ _ m2
  obtain ⟨r, hr⟩ := C75_initialized _ d' hm ht front rank hff v wl env (by
    obtain ⟨i, hi⟩ := List.exists_mem_of_length_pos (e1 ▸ hN)
    refine ⟨i, ?_⟩
    rw [(List.mem_filter.mp hi).2]
    rfl)
  have hne : portsWith (d'.plant v wl).det ≠ [] := by
    intro h0; rw [h0] at e2; simp only [List.length_nil] at e2; omega
  refine ⟨r, hr, fun B cs src => ?_⟩
  obtain ⟨o, ho', h⟩ := C66_freq_domain d' (hm.mono fun _ _ => trivial) v wl env hf ht1 hne r hr cs src
  refine ⟨o, ho', fun w b hw => ?_⟩
  obtain ⟨a, b', hab, hdet⟩ := term_steady hblank hd.made hs hdd hmade ht (hc fun k => asComplex (src 0 k w b)) v wl w hw
  rw [(h w b).2 a b' hab, List.map_map]
  have : (asComplex ∘ fun i => ((a i).re, (a i).im)) = a := rfl
  rw [this, hdet]
  apply List.ext_getElem
  · simp
  · intro m k1 k2
    simp only [List.length_map, List.length_range] at k1
    rw [List.getElem_map, List.getElem_range, List.getElem_ofFn]
    exact hy _ ⟨m, k1⟩

theorem mesh_realizes {N : ℕ} (hN : 0 < N) {d : Dev} (hd : LayerOK LosslessPart N d)
    (ho : Oriented d fun j => decide (j < N)) (nw newName : Str) (hg : GoodName nw) (hs : nw.head? ≠ some 's')
    (hdd : nw.head? ≠ some 'd') {wl₀ : ℝ} {U : Matrix (Fin N) (Fin N) ℂ} {y : (ℕ → ℂ) → ℕ → ℂ}
    (hy : ∀ a (k : Fin N), y a k = ∑ j : Fin N, U k j * a j) (hc : ∀ a, Carries d (.steady wl₀ 1) (inSide N a) (outSide N (y a))) :
    ∃ d', termDev newName nw d (meshTerms N) = .ok d' ∧ Realizes N d' wl₀ U :=
  mesh_realizes_any (fun _ => lossless_ne) hN hd ho nw newName hg hs hdd hy hc

theorem mzi_cell (phi theta neff ng wl0 l loss wl : ℝ) : cellOf (.mzi phi theta neff ng wl0 l loss) (.steady wl 1) =
    mziCell (Complex.exp ((propagation l neff wl0 ng wl : ℝ) * Complex.I)) phi theta := by
  obtain ⟨x, hx, h⟩ := mzi_shape phi theta l neff wl0 ng wl
  have e : ∀ i j : Fin 4, (Part.mzi phi theta neff ng wl0 l loss).dev.entry wl i j = _ := fun i j =>
    (entry_scattering (.mzi phi theta neff ng wl0 l loss) wl i j).trans (congrFun (congrFun h i) j)
  have hp : Complex.exp ((x + phi : ℝ) * Complex.I) = Complex.exp (x * Complex.I) * Complex.exp (phi * Complex.I) := by
    rw [← Complex.exp_add]
    push_cast
    ring_nf
  unfold cellOf mziCell
  rw [← hx, ← hp]
  congr 1
  · exact e 1 0
  · exact e 1 3
  · exact e 2 0
  · exact e 2 3

theorem exp_modTwoPi (x : ℝ) : Complex.exp ((modTwoPi x : ℝ) * Complex.I) = Complex.exp (x * Complex.I) := by
  have h : ((modTwoPi x : ℝ) : ℂ) * Complex.I =
      x * Complex.I - ((⌊x / (2 * Real.pi)⌋ : ℤ) : ℂ) * (2 * Real.pi * Complex.I) := by
    unfold modTwoPi
    push_cast
    ring
  rw [h, Complex.exp_sub, Complex.exp_int_mul_two_pi_mul_I, div_one]

theorem waveguide_wave (l neff wl0 ng phi wl : ℝ) : (Part.waveguide l 0 neff wl0 ng phi).dev.entry wl 1 0 =
    Complex.exp ((propagation l neff wl0 ng wl : ℝ) * Complex.I) * Complex.exp (phi * Complex.I) := by
  have h := (entry_scattering (.waveguide l 0 neff wl0 ng phi) wl 1 0).trans
    (congrFun (congrFun (waveguide_shape l 0 neff wl0 ng phi wl) 1) 0)
  refine h.trans ?_
  rw [← exp_modTwoPi phi, ← Complex.exp_add]
  show (lossFactor 0 l : ℂ) * _ = _
  have h1 : lossFactor 0 l = 1 := by simp [lossFactor]
  rw [h1, Complex.ofReal_one, one_mul]
  push_cast
  ring_nf

theorem waveguide_gain (l neff wl0 ng phi wl : ℝ) : (Part.waveguide l 0 neff wl0 ng phi).dev.gain (.steady wl 1) 1 0 =
    Complex.exp ((propagation l neff wl0 ng wl : ℝ) * Complex.I) * Complex.exp (phi * Complex.I) := waveguide_wave ..

/-- C76. Reck networks of the library's own components are universal: for every unitary matrix and every wavelength
there are phases of the interferometers and of the waveguides for which the network, terminated with sources on its
front and detectors on its back, multiplies the source amplitudes by that matrix, whatever the lengths and the
refractive indices of its components are. -/
theorem C76_reck (N : ℕ) (hN : 2 ≤ N) (U : Matrix (Fin N) (Fin N) ℂ) (hU : U ∈ Matrix.unitaryGroup (Fin N) ℂ) (wl : ℝ)
    (neff ng wl0 len loss : ℕ → ℕ → ℝ) (wneff wng wwl0 wlen : ℕ → ℝ) (newName : Str) :
    ∃ (phi theta : ℕ → ℕ → ℝ) (phase : ℕ → ℝ) (d d' : Dev),
      reck N (fun m i => .mzi (phi m i) (theta m i) (neff m i) (ng m i) (wl0 m i) (len m i) (loss m i))
        (fun m => .waveguide (wlen m) 0 (wneff m) (wwl0 m) (wng m) (phase m)) = .ok d ∧
      termDev newName reckCls d (meshTerms N) = .ok d' ∧ Realizes N d' wl U := by
  obtain ⟨n, rfl⟩ : ∃ n, N = n + 1 := ⟨N - 1, by omega⟩
  obtain ⟨phi, theta, psi, h⟩ := reck_universal n U hU
    (fun m i => Complex.exp ((propagation (len m i) (neff m i) (wl0 m i) (ng m i) wl : ℝ) * Complex.I))
    (fun m => Complex.exp ((propagation (wlen m) (wneff m) (wwl0 m) (wng m) wl : ℝ) * Complex.I))
    (fun _ _ => normSq_exp _) (fun _ => normSq_exp _)
  have hm : ∀ m i, FourOf LosslessPart (.mzi (phi m i) (theta m i) (neff m i) (ng m i) (wl0 m i) (len m i) (loss m i)) :=
    fun m i => mzi_four ..
  have hw : ∀ m, TwoOf LosslessPart (.waveguide (wlen m) 0 (wneff m) (wwl0 m) (wng m) (psi m)) := fun m => waveguide_two ..
  obtain ⟨d, hd, hl, ho⟩ := reck_made (P := LosslessPart) hN hm hw
  obtain ⟨d', h1, h2⟩ := mesh_realizes (by omega) hl ho reckCls newName (attr_of (by decide)).1 (by decide) (by decide) h
    (fun a => by
      have := reck_carries hN hm hw hd (.steady wl 1) a
      simp only [mzi_cell, waveguide_gain] at this
      exact this)
  exact ⟨phi, theta, psi, d, d', hd, h1, h2⟩

/-- A matrix is determined by the detected amplitudes. -/
theorem mulVec_unit {N : ℕ} (M : Matrix (Fin N) (Fin N) ℂ) (i j : Fin N) :
    (M *ᵥ fun k : Fin N => asComplex (if (k : ℕ) = (j : ℕ) then ((1 : ℝ), (0 : ℝ)) else (0, 0))) i = M i j := by
  simp only [Matrix.mulVec, dotProduct]
  rw [Finset.sum_eq_single j]
  · rw [if_pos rfl]
    show M i j * (⟨1, 0⟩ : ℂ) = M i j
    have : (⟨1, 0⟩ : ℂ) = 1 := rfl
    rw [this, mul_one]
  · intro k _ hk
    rw [if_neg fun hk' => hk (Fin.ext hk')]
    show M i k * (⟨0, 0⟩ : ℂ) = 0
    have : (⟨0, 0⟩ : ℂ) = 0 := rfl
    rw [this, mul_zero]
  · simp

/-- C76. A unitary device realizes no other matrices than unitary ones, and only one at each wavelength. -/
theorem C76_exact (N : ℕ) (d : Dev) (hd : UnitaryDevice N d) (wl : ℝ) (U V : Matrix (Fin N) (Fin N) ℂ)
    (hU : Realizes N d wl U) (hV : Realizes N d wl V) : U = V ∧ U ∈ Matrix.unitaryGroup (Fin N) ℂ := by
  obtain ⟨-, -, r, hr, M, hM, h⟩ := hd Unit 1 (fun _ => wl) ⟨none, true, [0]⟩ rfl rfl
  have key : ∀ X : Matrix (Fin N) (Fin N) ℂ, Realizes N d wl X → X = M () := by
    intro X hX
    obtain ⟨r', hr', h'⟩ := hX Unit 1 (fun _ => wl) ⟨none, true, [0]⟩ rfl rfl
    rw [hr] at hr'
    simp only [Except.ok.injEq, Option.some.injEq] at hr'
    subst hr'
    ext i j
    obtain ⟨o, ho, hw⟩ := h Unit [] fun _ m _ _ => if m = (j : ℕ) then (1, 0) else (0, 0)
    obtain ⟨o', ho', hw'⟩ := h' Unit [] fun _ m _ _ => if m = (j : ℕ) then (1, 0) else (0, 0)
    rw [ho] at ho'
    simp only [Except.ok.injEq, List.cons.injEq, and_true] at ho'
    subst ho'
    have he := (hw' () () rfl).symm.trans (hw () ())
    have hf := congrFun (List.ofFn_injective he) i
    rw [mulVec_unit, mulVec_unit] at hf
    exact hf
  exact ⟨(key U hU).trans (key V hV).symm, key U hU ▸ hM ()⟩

/-- C76. Hence the matrices realized by Reck networks are the unitary ones. -/
theorem C76_iff (N : ℕ) (hN : 2 ≤ N) (U : Matrix (Fin N) (Fin N) ℂ) (wl : ℝ) :
    U ∈ Matrix.unitaryGroup (Fin N) ℂ ↔
      ∃ (mz : ℕ → ℕ → Part) (wg : ℕ → Part) (d d' : Dev), (∀ m i, LosslessPart (mz m i) ∧ FourPort (mz m i)) ∧
        (∀ m, LosslessPart (wg m) ∧ TwoPort (wg m)) ∧ reck N mz wg = .ok d ∧
        termDev [] reckCls d (meshTerms N) = .ok d' ∧ Realizes N d' wl U := by
  constructor
  · intro hU
    obtain ⟨phi, theta, phase, d, d', h⟩ := C76_reck N hN U hU wl (fun _ _ => 2.34) (fun _ _ => 3.4) (fun _ _ => 1.55e-6)
      (fun _ _ => 0) (fun _ _ => 0) (fun _ => 2.34) (fun _ => 3.4) (fun _ => 1.55e-6) (fun _ => 0) []
    exact ⟨_, _, d, d', fun _ _ => mzi_four .., fun _ => waveguide_two .., h⟩
  · rintro ⟨mz, wg, d, d', hm, hw, h1, h2, h3⟩
    obtain ⟨e, e', k1, -, k2, -, k3⟩ := C56_unitary N hN mz wg hm hw []
    rw [h1] at k1
    simp only [Except.ok.injEq] at k1
    subst k1
    rw [h2] at k2
    simp only [Except.ok.injEq] at k2
    subst k2
    exact (C76_exact N d' k3 wl U U h3 h3).2

/-- The cyclic permutation of three modes. -/
def exCycle : Matrix (Fin 3) (Fin 3) ℂ := !![0, 1, 0; 0, 0, 1; 1, 0, 0]

theorem exCycle_unitary : exCycle ∈ Matrix.unitaryGroup (Fin 3) ℂ := by
  rw [Matrix.mem_unitaryGroup_iff]
  ext i j
  fin_cases i <;> fin_cases j <;> simp [exCycle, Matrix.mul_apply, Fin.sum_univ_three]

/-- A Reck network of components of different lengths which permutes its three modes at 1.55 μm. -/
example : ∃ (phi theta : ℕ → ℕ → ℝ) (phase : ℕ → ℝ) (d d' : Dev),
    reck 3 (fun m i => .mzi (phi m i) (theta m i) 2.34 3.4 1.55e-6 (1e-5 * m + 2e-6 * i) 0)
      (fun m => .waveguide (3e-6 * m) 0 2.34 1.55e-6 3.4 (phase m)) = .ok d ∧
    termDev [] reckCls d (meshTerms 3) = .ok d' ∧ Realizes 3 d' 1.55e-6 exCycle :=
  C76_reck 3 (by omega) exCycle exCycle_unitary 1.55e-6 (fun _ _ => 2.34) (fun _ _ => 3.4) (fun _ _ => 1.55e-6)
    (fun m i => 1e-5 * m + 2e-6 * i) (fun _ _ => 0) (fun _ => 2.34) (fun _ => 3.4) (fun _ => 1.55e-6) (fun m => 3e-6 * m) []

/-- It realizes nothing else. -/
example : ∃ d : Dev, Realizes 3 d 1.55e-6 exCycle ∧ ¬Realizes 3 d 1.55e-6 1 := by
  obtain ⟨mz, wg, d, d', hm, hw, h1, h2, h3⟩ := (C76_iff 3 (by omega) exCycle 1.55e-6).mp exCycle_unitary
  obtain ⟨e, e', k1, -, k2, -, k3⟩ := C56_unitary 3 (by omega) mz wg hm hw []
  rw [h1] at k1
  simp only [Except.ok.injEq] at k1
  subst k1
  rw [h2] at k2
  simp only [Except.ok.injEq] at k2
  subst k2
  refine ⟨d', h3, fun h => ?_⟩
  have := congrFun (congrFun (C76_exact 3 d' k3 _ _ _ h3 h).1 0) 0
  simp [exCycle] at this

end PT
