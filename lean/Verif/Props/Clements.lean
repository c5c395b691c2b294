import Verif.Proof.ClementsWaves
import Verif.Props.Universal

/-!
# C87: Clements networks are universal exactly when they have enough layers
-/

namespace PT
open Spec Matrix

/-- C87. Clements networks of the library's own components whose capacity is at least the number of modes are universal:
for every unitary matrix and every wavelength there are phases of the interferometers and of the waveguides of the last
layer for which the network, terminated with sources on its front and detectors on its back, multiplies the source
amplitudes by that matrix, whatever the lengths and the refractive indices of its components and the phases of the
other waveguides are. -/
theorem C87_clements (N capacity : ℕ) (hN : 2 ≤ N) (hcap : N ≤ capacity) (U : Matrix (Fin N) (Fin N) ℂ)
    (hU : U ∈ Matrix.unitaryGroup (Fin N) ℂ) (wl : ℝ) (neff ng wl0 len loss : ℕ → ℕ → ℝ)
    (wneff wng wwl0 wlen wphase : ℕ → ℕ → ℝ) (newName : Str) :
    ∃ (phi theta : ℕ → ℕ → ℝ) (psi : ℕ → ℝ) (d d' : Dev),
      clements N capacity
        (fun m i => .mzi (phi m i) (theta m i) (neff m i) (ng m i) (wl0 m i) (len m i) (loss m i))
        (fun m i => .waveguide (wlen m i) 0 (wneff m i) (wwl0 m i) (wng m i)
          (if m = capacity / 2 ∧ i < N then psi i else wphase m i)) = .ok d ∧
      termDev newName clementsCls d (meshTerms N) = .ok d' ∧ Realizes N d' wl U := by
  obtain ⟨n, rfl⟩ : ∃ n, N = n + 1 := ⟨N - 1, by omega⟩
  let P : ℕ → ℕ → ℂ := fun m i => Complex.exp ((propagation (len m i) (neff m i) (wl0 m i) (ng m i) wl : ℝ) * Complex.I)
  let Q : ℕ → ℕ → ℂ := fun m i => Complex.exp ((propagation (wlen m i) (wneff m i) (wwl0 m i) (wng m i) wl : ℝ) * Complex.I)
  obtain ⟨phi, theta, psi, h⟩ := rows_universal (K := capacity) hcap hU
    (p := fun l j => P (l / 2) (rowIdx capacity l j))
    (w := fun l => Q (l / 2) (passIdx (n + 1) capacity l) *
      Complex.exp (wphase (l / 2) (passIdx (n + 1) capacity l) * Complex.I))
    (v := fun k => Q (capacity / 2) k) (fun _ _ => normSq_exp _)
    (fun _ => by rw [Complex.normSq_mul, normSq_exp, normSq_exp, one_mul]) (fun _ => normSq_exp _)
  let row : ℕ → ℕ → ℕ := fun m i => if m < capacity / 2 then 2 * m + i % 2 else 2 * m
  let place : ℕ → ℕ → ℕ := fun m i => if m < capacity / 2 then i else 2 * i
  have hback : ∀ l < capacity, ∀ k, k % 2 = l % 2 → row (l / 2) (rowIdx capacity l k) = l ∧ place (l / 2) (rowIdx capacity l k) = k := by
    intro l hl k hk
    simp only [row, place, rowIdx]
    split
    · exact ⟨by omega, rfl⟩
    · exact ⟨by omega, by omega⟩
  set mz : ℕ → ℕ → Part := fun m i => .mzi (phi (row m i) (place m i)) (theta (row m i) (place m i)) (neff m i) (ng m i)
    (wl0 m i) (len m i) (loss m i) with hmz
  set wg : ℕ → ℕ → Part := fun m i => .waveguide (wlen m i) 0 (wneff m i) (wwl0 m i) (wng m i)
    (if m = capacity / 2 ∧ i < n + 1 then psi i else wphase m i) with hwg
  have hm : ∀ m i, FourOf LosslessPart (mz m i) := fun m i => mzi_four ..
  have hw : ∀ m i, TwoOf LosslessPart (wg m i) := fun m i => waveguide_two ..
  obtain ⟨d, hd, hl, ho⟩ := clements_made (P := LosslessPart) (capacity := capacity) hN (by omega) hm hw
  have hy : ∀ (a : ℕ → ℂ) (k : Fin (n + 1)), (wg (capacity / 2) k).dev.gain (.steady wl 1) 1 0 *
      rowState n (fun l j => cellOf (mz (l / 2) (rowIdx capacity l j)) (.steady wl 1))
        (fun l => (wg (l / 2) (passIdx (n + 1) capacity l)).dev.gain (.steady wl 1) 1 0) a capacity k = ∑ j, U k j * a j := by
    intro a k
    rw [← h a k]
    simp only [hwg, waveguide_gain]
    rw [if_pos ⟨trivial, k.2⟩]
    congr 1
    refine rowState_congr capacity ?_ ?_ k (by have := k.2; omega)
    · intro l hl j _ hj
      obtain ⟨e1, e2⟩ := hback l hl j hj
      simp only [hmz, mzi_cell]
      rw [e1, e2]
    · intro l hl
      have hne : ¬(l / 2 = capacity / 2 ∧ passIdx (n + 1) capacity l < n + 1) := by
        rintro ⟨e1, e2⟩
        unfold passIdx at e2
        rw [if_neg (by omega)] at e2
        omega
      rw [if_neg hne]
  obtain ⟨d', h1, h2⟩ := mesh_realizes (by omega) hl ho clementsCls newName (attr_of (by decide)).1 (by decide) (by decide)
    (U := U) hy (fun a => clements_carries hN (by omega) hm hw hd (.steady wl 1) a)
  exact ⟨_, _, psi, d, d', hd, h1, h2⟩

/-! ### Fewer layers -/

theorem rowOut_sum {q n : ℕ} (hq : q < 2) (c : ℕ → Cell ℂ) (w : ℂ) (a : ℕ → ℂ) (M : ℕ → ℕ → ℂ) (s : Finset ℕ) : ∀ k,
    rowOut q n c w (fun i => ∑ j ∈ s, M i j * a j) k = ∑ j ∈ s, rowOut q n c w (fun i => M i j) k * a j := by
  intro k
  unfold rowOut
  split
  · split
    · simp only [add_mul, Finset.sum_add_distrib, Finset.mul_sum, mul_assoc]
    · simp only [Finset.mul_sum, mul_assoc]
  · split
    · simp only [Finset.mul_sum, mul_assoc]
    · simp only [add_mul, Finset.sum_add_distrib, Finset.mul_sum, mul_assoc]

/-- Light at one input. -/
def unitAt (j k : ℕ) : ℂ := if k = j then 1 else 0

theorem rowState_sum (n : ℕ) (c : ℕ → ℕ → Cell ℂ) (w : ℕ → ℂ) (a : ℕ → ℂ) : ∀ L, ∀ k ≤ n,
    rowState n c w a L k = ∑ j ∈ Finset.range (n + 1), rowState n c w (unitAt j) L k * a j
  | 0, k, hk => by
    simp only [rowState, unitAt, ite_mul, one_mul, zero_mul]
    rw [Finset.sum_ite_eq, if_pos (Finset.mem_range.mpr (by omega))]
  | L + 1, k, hk => by
    rw [rowState]
    refine (rowOut_congr (by omega) (fun _ _ _ => rfl) rfl (rowState_sum n c w a L) k hk).trans ?_
    exact rowOut_sum (by omega) _ _ _ _ _ k

/-- Light from the first two inputs moves by at most one mode in every row. -/
theorem rowState_front (n : ℕ) (c : ℕ → ℕ → Cell ℂ) (w : ℕ → ℂ) (a : ℕ → ℂ) (ha : ∀ k, 2 ≤ k → a k = 0) : ∀ L, ∀ k,
    L + 1 < k → rowState n c w a (L + 1) k = 0 := by
  intro L
  induction L with
  | zero =>
    intro k hk
    rw [rowState, rowState]
    unfold rowOut
    split
    · split
      · rw [ha k (by omega), ha (k + 1) (by omega)]; simp
      · rw [ha k (by omega)]; simp
    · split
      · omega
      · rw [ha k (by omega), ha (k - 1) (by omega)]; simp
  | succ L ih =>
    intro k hk
    rw [rowState]
    unfold rowOut
    split
    · split
      · rw [ih k (by omega), ih (k + 1) (by omega)]; simp
      · rw [ih k (by omega)]; simp
    · split
      · omega
      · rw [ih k (by omega), ih (k - 1) (by omega)]; simp

/-- In fewer rows than modes the first two inputs reach the last two outputs through one mode only. -/
theorem rowState_minor {n L : ℕ} (hL : 1 ≤ L) (hLn : L < n) (c : ℕ → ℕ → Cell ℂ) (w : ℕ → ℂ) :
    rowState n c w (unitAt 0) (L + 1) (n - 1) * rowState n c w (unitAt 1) (L + 1) n =
      rowState n c w (unitAt 1) (L + 1) (n - 1) * rowState n c w (unitAt 0) (L + 1) n := by
  have hz : ∀ j < 2, ∀ k, L < k → rowState n c w (unitAt j) L k = 0 := by
    intro j hj k hk
    obtain ⟨m, rfl⟩ : ∃ m, L = m + 1 := ⟨L - 1, by omega⟩
    exact rowState_front n c w _ (fun k hk => if_neg (by omega)) m k hk
  have z0 := hz 0 (by omega) n hLn
  have z1 := hz 1 (by omega) n hLn
  simp only [rowState, rowOut]
  by_cases hp : n % 2 = L % 2
  · simp only [if_pos hp, if_neg (Nat.lt_irrefl n)]
    rw [z0, z1]
    ring
  · simp only [if_neg hp, if_pos (show (n - 1) % 2 = L % 2 by omega), if_pos (show n - 1 < n by omega),
      if_neg (show ¬ n = 0 by omega), show n - 1 + 1 = n by omega]
    rw [z0, z1]
    ring

/-- C87. Clements networks of lossless components with fewer layers than modes: the amplitudes from the first two inputs
at the last two outputs are proportional, whatever the components are. -/
theorem C87_capacity (N capacity : ℕ) (hc : 2 ≤ capacity) (hcap : capacity < N) (mz wg : ℕ → ℕ → Part)
    (hm : ∀ m i, LosslessPart (mz m i) ∧ FourPort (mz m i)) (hw : ∀ m i, LosslessPart (wg m i) ∧ TwoPort (wg m i))
    (newName : Str) (d d' : Dev) (hd : clements N capacity mz wg = .ok d)
    (hd' : termDev newName clementsCls d (meshTerms N) = .ok d') (wl : ℝ) (U : Matrix (Fin N) (Fin N) ℂ)
    (hU : Realizes N d' wl U) :
    U ⟨N - 2, by omega⟩ ⟨0, by omega⟩ * U ⟨N - 1, by omega⟩ ⟨1, by omega⟩ =
      U ⟨N - 2, by omega⟩ ⟨1, by omega⟩ * U ⟨N - 1, by omega⟩ ⟨0, by omega⟩ := by
  obtain ⟨n, rfl⟩ : ∃ n, N = n + 1 := ⟨N - 1, by omega⟩
  obtain ⟨e, e', k1, -, k2, -, k3⟩ := C57_unitary (n + 1) capacity (by omega) hc mz wg hm hw newName
  rw [hd] at k1
  simp only [Except.ok.injEq] at k1
  subst k1
  rw [hd'] at k2
  simp only [Except.ok.injEq] at k2
  subst k2
  obtain ⟨d₁, hd₁, hl, ho⟩ := clements_made (P := LosslessPart) (N := n + 1) (by omega) hc hm hw
  rw [hd] at hd₁
  simp only [Except.ok.injEq] at hd₁
  subst hd₁
  set c : ℕ → ℕ → Cell ℂ := fun l j => cellOf (mz (l / 2) (rowIdx capacity l j)) (.steady wl 1) with hcd
  set w : ℕ → ℂ := fun l => (wg (l / 2) (passIdx (n + 1) capacity l)).dev.gain (.steady wl 1) 1 0 with hwd
  set v : ℕ → ℂ := fun k => (wg (capacity / 2) k).dev.gain (.steady wl 1) 1 0 with hv
  set M : Matrix (Fin (n + 1)) (Fin (n + 1)) ℂ := Matrix.of fun k j => v k * rowState n c w (unitAt j) capacity k with hM
  obtain ⟨d₂, h1, h2⟩ := mesh_realizes (by omega) hl ho clementsCls newName (attr_of (by decide)).1 (by decide) (by decide)
    (U := M) (y := fun a k => v k * rowState n c w a capacity k) (by
      intro a k
      rw [rowState_sum n c w a capacity k (by have := k.2; omega), Finset.sum_range, Finset.mul_sum]
      exact Finset.sum_congr rfl fun j _ => by rw [hM, Matrix.of_apply, mul_assoc])
    (fun a => clements_carries (by omega) hc hm hw hd (.steady wl 1) a)
  rw [hd'] at h1
  simp only [Except.ok.injEq] at h1
  subst h1
  have hUM : U = M := (C76_exact (n + 1) d' k3 wl U M hU h2).1
  rw [hUM]
  obtain ⟨L, rfl⟩ : ∃ L, capacity = L + 1 := ⟨capacity - 1, by omega⟩
  have := rowState_minor (n := n) (L := L) (by omega) (by omega) c w
  simp only [hM, Matrix.of_apply, Nat.add_sub_cancel, show n + 1 - 2 = n - 1 by omega]
  linear_combination (v (n - 1) * v n) * this

/-- The reversal of the modes. -/
def reversal (N : ℕ) : Matrix (Fin N) (Fin N) ℂ := Matrix.of fun i j => if (i : ℕ) + j + 1 = N then 1 else 0

theorem reversal_unitary (N : ℕ) : reversal N ∈ Matrix.unitaryGroup (Fin N) ℂ := by
  rw [Matrix.mem_unitaryGroup_iff]
  ext i j
  rw [Matrix.mul_apply, Matrix.one_apply, Finset.sum_eq_single (⟨N - 1 - i, by have := i.2; omega⟩ : Fin N)]
  · have := i.2
    have := j.2
    simp only [reversal, Matrix.star_apply, Matrix.of_apply]
    rw [if_pos (by omega), one_mul]
    by_cases h : i = j
    · subst h
      rw [if_pos (by omega), if_pos rfl, star_one]
    · have : (i : ℕ) ≠ j := fun e => h (Fin.ext e)
      rw [if_neg (by omega), if_neg h, star_zero]
  · intro k _ hk
    simp only [reversal, Matrix.of_apply]
    rw [if_neg, zero_mul]
    intro h
    exact hk (Fin.ext (by simp only; omega))
  · simp

/-- C87. Hence every unitary matrix is realized by a Clements network of that capacity exactly when the capacity is at
least the number of modes. -/
theorem C87_iff (N capacity : ℕ) (hN : 2 ≤ N) (hc : 2 ≤ capacity) (wl : ℝ) :
    (∀ U : Matrix (Fin N) (Fin N) ℂ, U ∈ Matrix.unitaryGroup (Fin N) ℂ →
      ∃ (mz wg : ℕ → ℕ → Part) (d d' : Dev), (∀ m i, LosslessPart (mz m i) ∧ FourPort (mz m i)) ∧
        (∀ m i, LosslessPart (wg m i) ∧ TwoPort (wg m i)) ∧ clements N capacity mz wg = .ok d ∧
        termDev [] clementsCls d (meshTerms N) = .ok d' ∧ Realizes N d' wl U) ↔ N ≤ capacity := by
  constructor
  · intro h
    by_contra hlt
    obtain ⟨mz, wg, d, d', hm, hw, h1, h2, h3⟩ := h _ (reversal_unitary N)
    have := C87_capacity N capacity hc (by omega) mz wg hm hw [] d d' h1 h2 wl _ h3
    simp only [reversal, Matrix.of_apply] at this
    rw [if_neg (by omega), if_pos (show N - 2 + 1 + 1 = N by omega), if_pos (show N - 1 + 0 + 1 = N by omega), zero_mul,
      one_mul] at this
    exact zero_ne_one this
  · intro hcap U hU
    obtain ⟨phi, theta, psi, d, d', h⟩ := C87_clements N capacity hN hcap U hU wl (fun _ _ => 2.34) (fun _ _ => 3.4)
      (fun _ _ => 1.55e-6) (fun _ _ => 0) (fun _ _ => 0) (fun _ _ => 2.34) (fun _ _ => 3.4) (fun _ _ => 1.55e-6)
      (fun _ _ => 0) (fun _ _ => 0) []
    exact ⟨_, _, d, d', fun _ _ => mzi_four .., fun _ _ => waveguide_two .., h⟩

/-- A Clements network of capacity 3 of components of different lengths which permutes its three modes at 1.55 μm. -/
example : ∃ (phi theta : ℕ → ℕ → ℝ) (psi : ℕ → ℝ) (d d' : Dev),
    clements 3 3 (fun m i => .mzi (phi m i) (theta m i) 2.34 3.4 1.55e-6 (1e-5 * m + 2e-6 * i) 0)
      (fun m i => .waveguide (3e-6 * m) 0 2.34 1.55e-6 3.4 (if m = 1 ∧ i < 3 then psi i else 0.7)) = .ok d ∧
    termDev [] clementsCls d (meshTerms 3) = .ok d' ∧ Realizes 3 d' 1.55e-6 exCycle :=
  C87_clements 3 3 (by omega) (by omega) exCycle exCycle_unitary 1.55e-6 (fun _ _ => 2.34) (fun _ _ => 3.4) (fun _ _ => 1.55e-6)
    (fun m i => 1e-5 * m + 2e-6 * i) (fun _ _ => 0) (fun _ _ => 2.34) (fun _ _ => 3.4) (fun _ _ => 1.55e-6)
    (fun m _ => 3e-6 * m) (fun _ _ => 0.7) []

/-- With capacity 2 three modes cannot be reversed, with capacity 3 they can. -/
example : (∃ U ∈ Matrix.unitaryGroup (Fin 3) ℂ, ¬∃ (mz wg : ℕ → ℕ → Part) (d d' : Dev),
      (∀ m i, LosslessPart (mz m i) ∧ FourPort (mz m i)) ∧ (∀ m i, LosslessPart (wg m i) ∧ TwoPort (wg m i)) ∧
      clements 3 2 mz wg = .ok d ∧ termDev [] clementsCls d (meshTerms 3) = .ok d' ∧ Realizes 3 d' 1.55e-6 U) ∧
    ∃ (mz wg : ℕ → ℕ → Part) (d d' : Dev), (∀ m i, LosslessPart (mz m i) ∧ FourPort (mz m i)) ∧
      (∀ m i, LosslessPart (wg m i) ∧ TwoPort (wg m i)) ∧ clements 3 3 mz wg = .ok d ∧
      termDev [] clementsCls d (meshTerms 3) = .ok d' ∧ Realizes 3 d' 1.55e-6 (reversal 3) := by
  refine ⟨?_, (C87_iff 3 3 (by omega) (by omega) 1.55e-6).mpr (le_refl _) _ (reversal_unitary 3)⟩
  by_contra hall
  push Not at hall
  have := (C87_iff 3 2 (by omega) (by omega) 1.55e-6).mp fun U hU => by
    by_contra hno
    exact hno (hall U hU)
  omega

end PT
