import Verif.Proof.Arrival
import Verif.Props.Clements
import Verif.Props.Modulate

/-!
# C104: when the light arrives at the outputs of meshes
-/

namespace PT
open Spec Matrix
open PowerSeries (C X coeff)

/-- A mesh whose waves are known in the time domain, terminated with sources on the front and detectors on the back. -/
theorem mesh_arrives {P : Part → Prop} (hblank : ∀ p, P p → p ≠ .source ∧ p ≠ .detector) {N : ℕ} (hN : 0 < N) {d : Dev}
    (hd : LayerOK P N d) (ho : Oriented d fun j => decide (j < N)) (nw newName : Str) (hg : GoodName nw)
    (hs : nw.head? ≠ some 's') (hdd : nw.head? ≠ some 'd') {d' : Dev} (hd' : termDev newName nw d (meshTerms N) = .ok d')
    {wl₀ v dt : ℝ} (hpos : 0 < dt) {U : Matrix (Fin N) (Fin N) ℂ} {D : Fin N → Fin N → ℕ}
    {y : (ℕ → PowerSeries ℂ) → ℕ → PowerSeries ℂ}
    (hy : ∀ a t (k : Fin N), coeff t (y a k) = ∑ j : Fin N, U k j * if D k j ≤ t then coeff (t - D k j) (a j) else 0)
    (hc : ∀ a, Carries d (.moving wl₀ v dt) (inSide N a) (outSide N (y a))) : Arrives N d' wl₀ v dt D U := by
  obtain ⟨d₁, h1, hm, ht, ⟨front, rank, hff, hsrc⟩, c1, c2, hmade⟩ := term_made hblank hN hd ho nw newName hg hs hdd
  rw [hd'] at h1
  simp only [Except.ok.injEq] at h1
  subst h1
  intro W wl env hf hdt
  obtain ⟨m1, m2, -⟩ := built_marks hm.ok.1
  have e1 : (portsWith (d'.plant v wl).src).length = N := by rw [← c1]; exact count_marks _ _ m1
  have e2 : (portsWith (d'.plant v wl).det).length = N := by rw [← c2]; exact count_marks _ _ m2
  obtain ⟨r, hr⟩ := C75_initialized _ d' hm ht front rank hff v wl env (by
    obtain ⟨i, hi⟩ := List.exists_mem_of_length_pos (e1 ▸ hN)
    refine ⟨i, ?_⟩
    rw [(List.mem_filter.mp hi).2]
    rfl)
  have hne : portsWith (d'.plant v wl).det ≠ [] := by
    intro h0; rw [h0] at e2; simp only [List.length_nil] at e2; omega
  refine ⟨r, hr, fun B cs src => ?_⟩
  obtain ⟨out, ho', hlen, h⟩ := C66_time_domain d' (hm.mono fun _ _ => trivial) v wl env dt hdt hpos hf hne r hr cs src
  refine ⟨out, ho', hlen, fun t htl w b hw => ?_⟩
  obtain ⟨a, b', hab, hdet⟩ := term_moving hblank hd.made hs hdd hmade ht
    (hc fun k => PowerSeries.mk fun t => asComplex (src t k w b)) wl w hw env.t.length
  simp only [PowerSeries.coeff_mk] at hab
  rw [(h w b).2 a b' hab t htl, List.map_map]
  have : (asComplex ∘ fun i => ((a t i).re, (a t i).im)) = a t := rfl
  rw [this, hdet]
  apply List.ext_getElem
  · simp
  · intro m k1 k2
    simp only [List.length_map, List.length_range] at k1
    rw [List.getElem_map, List.getElem_range, List.getElem_ofFn]
    refine (hy _ t ⟨m, k1⟩).trans ?_
    simp only [PowerSeries.coeff_mk]

theorem many_blank (p : Part) (h : 1 < p.n) : p ≠ .source ∧ p ≠ .detector := by
  constructor
  · rintro rfl; exact absurd h (by decide)
  · rintro rfl; exact absurd h (by decide)

/-- C104. In a Clements network whose interferometers and waveguides all have the same delay, light takes the same time
from every source to every detector: the detectors see the frequency-domain response, `capacity + 1` delays later. -/
theorem C104_clements (N capacity : ℕ) (hN : 2 ≤ N) (hc : 2 ≤ capacity) (mz wg : ℕ → ℕ → Part)
    (hm : ∀ m i, FourPort (mz m i)) (hw : ∀ m i, TwoPort (wg m i)) (newName : Str) :
    ∃ d d', clements N capacity mz wg = .ok d ∧ termDev newName clementsCls d (meshTerms N) = .ok d' ∧
      ∃ U : ℝ → Matrix (Fin N) (Fin N) ℂ, (∀ wl, Realizes N d' wl (U wl)) ∧
        ∀ (v dt : ℝ) (n : ℕ), 0 < dt → (∀ m i, roundSteps ((mz m i).delay v / dt) = n) →
          (∀ m i, roundSteps ((wg m i).delay v / dt) = n) →
          ∀ wl, Arrives N d' wl v dt (fun _ _ => (capacity + 1) * n) (U wl) := by
  obtain ⟨n, rfl⟩ : ∃ n, N = n + 1 := ⟨N - 1, by omega⟩
  have hm' : ∀ m i, FourOf (fun p => 1 < p.n) (mz m i) := fun m i => ⟨by show 1 < (mz m i).n; rw [(hm m i).1]; omega, hm m i⟩
  have hw' : ∀ m i, TwoOf (fun p => 1 < p.n) (wg m i) := fun m i => ⟨by show 1 < (wg m i).n; rw [(hw m i).1]; omega, hw m i⟩
  obtain ⟨d, hd, hl, ho⟩ := clements_made (N := n + 1) hN hc hm' hw'
  set U : ℝ → Matrix (Fin (n + 1)) (Fin (n + 1)) ℂ := fun wl => Matrix.of fun k j =>
    (wg (capacity / 2) k).dev.gain (.steady wl 1) 1 0 *
      rowState n (fun l j => cellOf (mz (l / 2) (rowIdx capacity l j)) (.steady wl 1))
        (fun l => (wg (l / 2) (passIdx (n + 1) capacity l)).dev.gain (.steady wl 1) 1 0) (unitAt j) capacity k with hU
  have hlin : ∀ wl (a : ℕ → ℂ) (k : Fin (n + 1)), (wg (capacity / 2) k).dev.gain (.steady wl 1) 1 0 *
      rowState n (fun l j => cellOf (mz (l / 2) (rowIdx capacity l j)) (.steady wl 1))
        (fun l => (wg (l / 2) (passIdx (n + 1) capacity l)).dev.gain (.steady wl 1) 1 0) a capacity k =
      ∑ j, U wl k j * a j := by
    intro wl a k
    rw [rowState_sum n _ _ a capacity k (by have := k.2; omega), Finset.sum_range, Finset.mul_sum]
    exact Finset.sum_congr rfl fun j _ => (mul_assoc _ _ _).symm
  have hreal : ∀ wl, ∃ d', termDev newName clementsCls d (meshTerms (n + 1)) = .ok d' ∧ Realizes (n + 1) d' wl (U wl) :=
    fun wl => mesh_realizes_any many_blank (by omega) hl ho clementsCls newName (attr_of (by decide)).1 (by decide) (by decide)
      (hlin wl) (fun a => clements_carries hN hc hm' hw' hd (.steady wl 1) a)
  obtain ⟨d', h1, -⟩ := hreal 0
  refine ⟨d, d', hd, h1, U, ?_, ?_⟩
  · intro wl
    obtain ⟨d₁, h2, h3⟩ := hreal wl
    rw [h1] at h2
    simp only [Except.ok.injEq] at h2
    exact h2 ▸ h3
  · intro v dt s hpos hsm hsw wl
    refine mesh_arrives many_blank (by omega) hl ho clementsCls newName (attr_of (by decide)).1 (by decide) (by decide) h1 hpos
      ?_ (fun a => clements_carries hN hc hm' hw' hd (.moving wl v dt) a)
    intro a t k
    simp only [cell_moving (hm _ _) wl v dt (hsm _ _), two_moving (hw _ _) wl v dt (hsw _ _)]
    simp only [Nat.add_sub_cancel]
    rw [rowState_scale (X ^ s : PowerSeries ℂ) n
      (fun l j => (cellOf (mz (l / 2) (rowIdx capacity l j)) (.steady wl 1)).const)
      (fun l => C ((wg (l / 2) (passIdx (n + 1) capacity l)).dev.gain (.steady wl 1) 1 0)) a capacity k]
    have e : ∀ q : PowerSeries ℂ, C ((wg (capacity / 2) k).dev.gain (.steady wl 1) 1 0) * X ^ s * ((X ^ s) ^ capacity * q) =
        C ((wg (capacity / 2) k).dev.gain (.steady wl 1) 1 0) * X ^ ((capacity + 1) * s) * q := by
      intro q
      rw [show (capacity + 1) * s = s + s * capacity by ring, pow_add, pow_mul]
      ring
    rw [e, coeff_moving]
    split
    · rw [rowState_coeff, hlin]
    · simp

/-- C104. In a Reck network whose interferometers and waveguides all have the same delay, light takes `i + j + 1` delays from
source `j` to detector `i` (both counted from 0): it arrives at different times. -/
theorem C104_reck (N : ℕ) (hN : 2 ≤ N) (mz : ℕ → ℕ → Part) (wg : ℕ → Part) (hm : ∀ m i, FourPort (mz m i))
    (hw : ∀ m, TwoPort (wg m)) (newName : Str) :
    ∃ d d', reck N mz wg = .ok d ∧ termDev newName reckCls d (meshTerms N) = .ok d' ∧
      ∃ U : ℝ → Matrix (Fin N) (Fin N) ℂ, (∀ wl, Realizes N d' wl (U wl)) ∧
        ∀ (v dt : ℝ) (n : ℕ), 0 < dt → (∀ m i, roundSteps ((mz m i).delay v / dt) = n) →
          (∀ m, roundSteps ((wg m).delay v / dt) = n) →
          ∀ wl, Arrives N d' wl v dt (fun i j => (i + j + 1) * n) (U wl) := by
  obtain ⟨n, rfl⟩ : ∃ n, N = n + 1 := ⟨N - 1, by omega⟩
  have hm' : ∀ m i, FourOf (fun p => 1 < p.n) (mz m i) := fun m i => ⟨by show 1 < (mz m i).n; rw [(hm m i).1]; omega, hm m i⟩
  have hw' : ∀ m, TwoOf (fun p => 1 < p.n) (wg m) := fun m => ⟨by show 1 < (wg m).n; rw [(hw m).1]; omega, hw m⟩
  obtain ⟨d, hd, hl, ho⟩ := reck_made (N := n + 1) hN hm' hw'
  set U : ℝ → Matrix (Fin (n + 1)) (Fin (n + 1)) ℂ := fun wl => Matrix.of fun k j =>
    reckRes n (fun m i => cellOf (mz m i) (.steady wl 1)) (fun m => (wg m).dev.gain (.steady wl 1) 1 0)
      (fun i => if i = (j : ℕ) then 1 else 0) k with hU
  have hlin : ∀ wl (a : ℕ → ℂ) (k : Fin (n + 1)), reckRes n (fun m i => cellOf (mz m i) (.steady wl 1))
      (fun m => (wg m).dev.gain (.steady wl 1) 1 0) a k = ∑ j, U wl k j * a j := by
    intro wl a k
    rw [reckRes_sum n _ _ a k (by have := k.2; omega), Finset.sum_range]
    rfl
  have hreal : ∀ wl, ∃ d', termDev newName reckCls d (meshTerms (n + 1)) = .ok d' ∧ Realizes (n + 1) d' wl (U wl) :=
    fun wl => mesh_realizes_any many_blank (by omega) hl ho reckCls newName (attr_of (by decide)).1 (by decide) (by decide)
      (hlin wl) (fun a => reck_carries hN hm' hw' hd (.steady wl 1) a)
  obtain ⟨d', h1, -⟩ := hreal 0
  refine ⟨d, d', hd, h1, U, ?_, ?_⟩
  · intro wl
    obtain ⟨d₁, h2, h3⟩ := hreal wl
    rw [h1] at h2
    simp only [Except.ok.injEq] at h2
    exact h2 ▸ h3
  · intro v dt s hpos hsm hsw wl
    refine mesh_arrives many_blank (by omega) hl ho reckCls newName (attr_of (by decide)).1 (by decide) (by decide) h1 hpos
      ?_ (fun a => reck_carries hN hm' hw' hd (.moving wl v dt) a)
    intro a t k
    simp only [cell_moving (hm _ _) wl v dt (hsm _ _), two_moving (hw _) wl v dt (hsw _)]
    simp only [Nat.add_sub_cancel]
    rw [reckRes_scale (X ^ s : PowerSeries ℂ) n (fun m i => (cellOf (mz m i) (.steady wl 1)).const)
      (fun m => C ((wg m).dev.gain (.steady wl 1) 1 0)) a k, ← pow_mul, PowerSeries.coeff_X_pow_mul']
    split
    · rename_i hk
      rw [reckRes_coeff, hlin]
      refine Finset.sum_congr rfl fun j _ => ?_
      congr 1
      rw [← pow_mul, PowerSeries.coeff_X_pow_mul']
      have e : ((k : ℕ) + j + 1) * s = s * (k + 1) + s * j := by ring
      rw [e]
      by_cases hj : s * (k + 1) + s * j ≤ t
      · rw [if_pos hj, if_pos (by omega), Nat.sub_sub]
      · rw [if_neg hj, if_neg (by omega)]
    · rename_i hk
      symm
      refine Finset.sum_eq_zero fun j _ => ?_
      have e : ((k : ℕ) + j + 1) * s = s * (k + 1) + s * j := by ring
      rw [if_neg (by rw [e]; omega), mul_zero]

/-- C104. A pulse from one source is seen by every detector in one time step, that of its arrival. -/
theorem C104_pulse {N : ℕ} {d : Dev} {wl₀ v dt : ℝ} {D : Fin N → Fin N → ℕ} {U : Matrix (Fin N) (Fin N) ℂ}
    (h : Arrives N d wl₀ v dt D U) {W : Type} (wl : W → ℝ) (env : SimEnv) (hf : env.freqdomain = false)
    (hdt : env.dt = some dt) (j : Fin N) :
    ∃ r, initNet (d.plant v wl) env = .ok (some r) ∧
      ∃ out, forwardReduced r env [] (fun t k _ (_ : Unit) => if t = 0 ∧ k = (j : ℕ) then (1, 0) else (0, 0)) = .ok out ∧
        out.length = env.t.length ∧ ∀ t (ht : t < out.length) w, wl w = wl₀ →
          (out[t] w ()).map asComplex = List.ofFn fun i : Fin N => if t = D i j then U i j else 0 := by
  obtain ⟨r, hr, h⟩ := h W wl env hf hdt
  obtain ⟨out, ho, hl, h⟩ := h Unit [] fun t k _ _ => if t = 0 ∧ k = (j : ℕ) then (1, 0) else (0, 0)
  refine ⟨r, hr, out, ho, hl, fun t ht w hw => ?_⟩
  rw [h t ht w () hw]
  congr 1
  funext i
  rw [Finset.sum_eq_single j]
  · by_cases h1 : D i j ≤ t
    · by_cases h2 : t = D i j
      · rw [if_pos h1, if_pos ⟨by omega, rfl⟩, if_pos h2]
        show U i j * (⟨1, 0⟩ : ℂ) = U i j
        have : (⟨1, 0⟩ : ℂ) = 1 := rfl
        rw [this, mul_one]
      · rw [if_pos h1, if_neg (by omega), if_neg h2]
        show U i j * (⟨0, 0⟩ : ℂ) = 0
        have : (⟨0, 0⟩ : ℂ) = 0 := rfl
        rw [this, mul_zero]
    · rw [if_neg h1, if_neg (by omega), mul_zero]
  · intro k _ hk
    have hne : ¬(k : ℕ) = j := fun e => hk (Fin.ext e)
    split
    · rw [if_neg (by simp [hne])]
      show U i k * (⟨0, 0⟩ : ℂ) = 0
      have : (⟨0, 0⟩ : ℂ) = 0 := rfl
      rw [this, mul_zero]
    · rw [mul_zero]
  · simp

/-- C104. Every unitary matrix can be applied to signals by a Clements network: with interferometers and waveguides of one
length and one group index and suitable phases the detectors receive, in every time step, the matrix times what the sources
emitted a fixed time before. -/
theorem C104_universal (N capacity : ℕ) (hN : 2 ≤ N) (hc : N ≤ capacity) (U : Matrix (Fin N) (Fin N) ℂ)
    (hU : U ∈ Matrix.unitaryGroup (Fin N) ℂ) (wl neff ng wl0 len v dt : ℝ) (hpos : 0 < dt) (newName : Str) :
    ∃ (phi theta psi : ℕ → ℕ → ℝ) (d d' : Dev),
      clements N capacity (fun m i => .mzi (phi m i) (theta m i) neff ng wl0 len 0)
        (fun m i => .waveguide len 0 neff wl0 ng (psi m i)) = .ok d ∧
      termDev newName clementsCls d (meshTerms N) = .ok d' ∧ Realizes N d' wl U ∧
      Arrives N d' wl v dt (fun _ _ => (capacity + 1) * roundSteps (ng * len / v / dt)) U := by
  obtain ⟨phi, theta, psi, d, d', h1, h2, h3⟩ := C87_clements N capacity hN hc U hU wl (fun _ _ => neff) (fun _ _ => ng)
    (fun _ _ => wl0) (fun _ _ => len) (fun _ _ => 0) (fun _ _ => neff) (fun _ _ => ng) (fun _ _ => wl0) (fun _ _ => len)
    (fun _ _ => 0) newName
  refine ⟨phi, theta, _, d, d', h1, h2, h3, ?_⟩
  obtain ⟨e, e', k1, k2, V, k3, k4⟩ := C104_clements N capacity hN (by omega) _ _ (fun m i => (mzi_four ..).2)
    (fun m i => (waveguide_two ..).2) newName
  rw [h1] at k1
  simp only [Except.ok.injEq] at k1
  subst k1
  rw [h2] at k2
  simp only [Except.ok.injEq] at k2
  subst k2
  obtain ⟨f, f', l1, -, l2, -, l3⟩ := C57_unitary N capacity hN (by omega) _ _ (fun m i => mzi_four ..)
    (fun m i => waveguide_two ..) newName
  rw [h1] at l1
  simp only [Except.ok.injEq] at l1
  subst l1
  rw [h2] at l2
  simp only [Except.ok.injEq] at l2
  subst l2
  rw [(C76_exact N d' l3 wl U (V wl) h3 (k3 wl)).1]
  exact k4 v dt _ hpos (fun _ _ => rfl) (fun _ _ => rfl) wl

/-- Light takes 10 steps of 0.1 ps for 100 μm at group index 3 and 3·10⁸ m/s. -/
theorem exArrival_steps : roundSteps (3 * 1e-4 / 3e8 / 1e-13) = 10 := by
  have : (3 * 1e-4 / 3e8 / 1e-13 : ℝ) = (10 : ℕ) := by norm_num
  rw [this, roundSteps_nat]

/-- A Clements network of capacity 4 of components 100 μm long which permutes three signals: they all arrive after 50 steps
of 0.1 ps. -/
example : ∃ (phi theta psi : ℕ → ℕ → ℝ) (d d' : Dev),
    clements 3 4 (fun m i => .mzi (phi m i) (theta m i) 2.34 3 1.55e-6 1e-4 0)
      (fun m i => .waveguide 1e-4 0 2.34 1.55e-6 3 (psi m i)) = .ok d ∧
    termDev [] clementsCls d (meshTerms 3) = .ok d' ∧ Realizes 3 d' 1.55e-6 exCycle ∧
    Arrives 3 d' 1.55e-6 3e8 1e-13 (fun _ _ => 50) exCycle := by
  obtain ⟨phi, theta, psi, d, d', h1, h2, h3, h4⟩ := C104_universal 3 4 (by omega) (by omega) exCycle exCycle_unitary 1.55e-6
    2.34 3 1.55e-6 1e-4 3e8 1e-13 (by norm_num) []
  rw [exArrival_steps] at h4
  exact ⟨phi, theta, psi, d, d', h1, h2, h3, h4⟩

/-- The same components in a Reck network: the first detector sees the first source after 10 steps, the second source after
20 and the third after 30. -/
example : ∃ (phi theta : ℕ → ℕ → ℝ) (psi : ℕ → ℝ) (d d' : Dev) (U : Matrix (Fin 3) (Fin 3) ℂ),
    reck 3 (fun m i => .mzi (phi m i) (theta m i) 2.34 3 1.55e-6 1e-4 0)
      (fun m => .waveguide 1e-4 0 2.34 1.55e-6 3 (psi m)) = .ok d ∧
    termDev [] reckCls d (meshTerms 3) = .ok d' ∧ U = exCycle ∧
    Arrives 3 d' 1.55e-6 3e8 1e-13 (fun i j => (i + j + 1) * 10) U := by
  obtain ⟨phi, theta, psi, d, d', h1, h2, h3⟩ := C76_reck 3 (by omega) exCycle exCycle_unitary 1.55e-6 (fun _ _ => 2.34)
    (fun _ _ => 3) (fun _ _ => 1.55e-6) (fun _ _ => 1e-4) (fun _ _ => 0) (fun _ => 2.34) (fun _ => 3) (fun _ => 1.55e-6)
    (fun _ => 1e-4) []
  obtain ⟨e, e', k1, k2, V, k3, k4⟩ := C104_reck 3 (by omega) _ _ (fun m i => (mzi_four ..).2)
    (fun m => (waveguide_two ..).2) []
  rw [h1] at k1
  simp only [Except.ok.injEq] at k1
  subst k1
  rw [h2] at k2
  simp only [Except.ok.injEq] at k2
  subst k2
  obtain ⟨f, f', l1, -, l2, -, l3⟩ := C56_unitary 3 (by omega) _ _ (fun m i => mzi_four ..) (fun m => waveguide_two ..) []
  rw [h1] at l1
  simp only [Except.ok.injEq] at l1
  subst l1
  rw [h2] at l2
  simp only [Except.ok.injEq] at l2
  subst l2
  refine ⟨phi, theta, psi, d, d', exCycle, h1, h2, rfl, ?_⟩
  rw [(C76_exact 3 d' l3 1.55e-6 exCycle (V 1.55e-6) h3 (k3 _)).1]
  exact k4 3e8 1e-13 10 (by norm_num) (fun _ _ => exArrival_steps) (fun _ => exArrival_steps) _

/-- A pulse from the first source of the Clements network above reaches the detectors in step 50 and is gone in step 51. -/
example : ∃ (d' : Dev) (r : Reduced Unit) (out : List (Unit → Unit → List (ℝ × ℝ))),
    initNet (d'.plant 3e8 fun _ => 1.55e-6) ⟨some 1e-13, false, (List.range 60).map fun i => 1e-13 * i⟩ = .ok (some r) ∧
    forwardReduced r ⟨some 1e-13, false, (List.range 60).map fun i => 1e-13 * i⟩ []
      (fun t k _ _ => if t = 0 ∧ k = 0 then (1, 0) else (0, 0)) = .ok out ∧
    ∀ h : out.length = 60, (out[49] () ()).map asComplex = [0, 0, 0] ∧
      (out[50] () ()).map asComplex = List.ofFn (fun i => exCycle i 0) ∧ (out[51] () ()).map asComplex = [0, 0, 0] := by
  obtain ⟨phi, theta, psi, d, d', -, -, -, h⟩ := C104_universal 3 4 (by omega) (by omega) exCycle exCycle_unitary 1.55e-6
    2.34 3 1.55e-6 1e-4 3e8 1e-13 (by norm_num) []
  rw [exArrival_steps] at h
  obtain ⟨r, hr, out, ho, -, hp⟩ := C104_pulse h (fun _ : Unit => 1.55e-6)
    ⟨some 1e-13, false, (List.range 60).map fun i => 1e-13 * i⟩ rfl rfl 0
  refine ⟨d', r, out, hr, ho, fun hl => ⟨?_, ?_, ?_⟩⟩
  · rw [hp 49 (by omega) () rfl]; simp
  · rw [hp 50 (by omega) () rfl]; simp
  · rw [hp 51 (by omega) () rfl]; simp

end PT
